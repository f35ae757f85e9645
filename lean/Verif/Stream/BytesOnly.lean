import Verif.Stream.BytesWrite
import Verif.Stream.BytesToks
/-!
# Lemmas: only JSON is read
-/
set_option autoImplicit false
set_option linter.unusedVariables false
set_option linter.unusedSimpArgs false
namespace Verif.Stream
open Verif.Value (Str runeLen)
open Verif.Text (encode Scalar)

theorem hexVal_some {b : UInt8} {v : Nat} (h : hexVal b = some v) : HexOf b v := by
  unfold hexVal at h
  unfold HexOf
  dsimp only at h
  split at h
  · cases h; omega
  · split at h
    · cases h; omega
    · split at h
      · cases h; omega
      · cases h

theorem hex4_some {a b c d : UInt8} {n : Nat} (h : hex4 a b c d = some n) : Hex4 n [a, b, c, d] := by
  unfold hex4 at h
  split at h
  · rename_i x y z w h1 h2 h3 h4
    cases h
    exact ⟨a, b, c, d, x, y, z, w, rfl, hexVal_some h1, hexVal_some h2, hexVal_some h3, hexVal_some h4, rfl⟩
  · cases h

theorem lowSurrogate_some {s r : Str} {v : Nat} (h : lowSurrogate s = some (v, r)) :
    ∃ t, s = [92, 117] ++ t ++ r ∧ Hex4 v t ∧ 0xDC00 ≤ v ∧ v < 0xE000 := by
  unfold lowSurrogate at h
  split at h
  · split at h
    · rename_i h1
      split at h
      · rename_i hv
        cases h
        exact ⟨_, rfl, hex4_some h1, hv.1, hv.2⟩
      · cases h
    · cases h
  · cases h

theorem encode_bad {u : Nat} (h : ¬Scalar u) (hu : u < 0x110000) : encode u = encode 0xFFFD := by
  unfold Scalar at h
  unfold encode
  rw [if_neg (by omega), if_neg (by omega), if_neg (by omega), if_neg (by omega)]
  decide

theorem hex4_lt {n : Nat} {t : Str} (h : Hex4 n t) : n < 0x10000 := by
  obtain ⟨a, b, c, d, x, y, z, w, rfl, ha, hb, hc, hd, rfl⟩ := h
  unfold HexOf at ha hb hc hd
  have : x < 16 := by omega
  have : y < 16 := by omega
  have : z < 16 := by omega
  have : w < 16 := by omega
  omega

theorem shortEscape_some {e c : UInt8} (h : shortEscape e = some c) :
    (e, c.toNat) ∈ [((34 : UInt8), 34), (92, 92), (47, 47), (98, 8), (102, 12), (110, 10), (114, 13), (116, 9)] ∧ c.toNat < 0x80 := by
  unfold shortEscape at h
  split at h
  · rename_i he
    cases h
    rcases he with rfl | rfl | rfl <;> decide
  · repeat' (split at h)
    all_goals first
      | (rename_i he; subst he; cases h; decide)
      | cases h

/-- Only literals are read as strings. -/
theorem unquote_some : ∀ (n : Nat) (s q r : Str), unquote n s = some (q, r) → ∃ t, s = t ++ 34 :: r ∧ StrText true q t
  | 0, _, _, _, h => by cases h
  | n + 1, [], _, _, h => by cases h
  | n + 1, b :: s, q, r, h => by
    rw [unquote.eq_def] at h
    dsimp only at h
    have next : ∀ (c : Nat) (x s' : Str) (w : Str), CharText true c x → w = encode c → b :: s = x ++ s' →
        (unquote n s').map (fun q => (w ++ q.1, q.2)) = some (q, r) → ∃ t, b :: s = t ++ 34 :: r ∧ StrText true q t := by
      intro c x s' w hx hw hs h
      simp only [Option.map_eq_some_iff] at h
      obtain ⟨⟨q', r'⟩, h1, h2⟩ := h
      cases h2
      obtain ⟨t, rfl, ht⟩ := unquote_some n _ _ _ h1
      exact ⟨x ++ t, by rw [hs]; simp, hw ▸ .cons c x q' t hx ht⟩
    split at h
    · rename_i hb; cases h; exact ⟨[], by rw [hb]; rfl, .nil⟩
    · rename_i hq
      split at h
      · rename_i hb
        subst hb
        split at h
        · cases h
        · rename_i e r'
          split at h
          · rename_i he
            subst he
            split at h
            · rename_i x y z w r''
              split at h
              · cases h
              · rename_i u hu
                have h4 := hex4_some hu
                have hlt := hex4_lt h4
                have half : ∀ c', encode c' = encode 0xFFFD → ¬Scalar u →
                    (unquote n r'').map (fun q => (encode c' ++ q.1, q.2)) = some (q, r) → ∃ t, (92 :: 117 :: x :: y :: z :: w :: r'') = t ++ 34 :: r ∧ StrText true q t :=
                  fun c' hc' hn h => next 0xFFFD ([92, 117] ++ [x, y, z, w]) r'' _ (.half u _ rfl hn h4) hc' rfl h
                split at h
                · rename_i hs
                  split at h
                  · rename_i v r3 hv
                    obtain ⟨t', rfl, hv4, hv1⟩ := lowSurrogate_some hv
                    exact next _ ([92, 117] ++ [x, y, z, w] ++ [92, 117] ++ t') r3 _ (.surrogates u v _ _ hs hv1 h4 hv4) rfl (by simp) h
                  · exact half _ rfl (by unfold Scalar; omega) h
                · by_cases hsc : Scalar u
                  · exact next u ([92, 117] ++ [x, y, z, w]) r'' _ (.unicode u _ hsc h4) rfl rfl h
                  · exact half u (encode_bad hsc (by omega)) hsc h
            · cases h
          · split at h
            · cases h
            · rename_i c hc
              obtain ⟨h1, h2⟩ := shortEscape_some hc
              exact next c.toNat [92, e] r' [c] (.escape e _ h1) (encode_ascii h2).symm rfl h
      · rename_i hbs
        split at h
        · cases h
        · rename_i hlow
          by_cases hbad : Text.decode (b :: s) = Text.runeError ∧ runeLen (b :: s) = 1
          · have hb80 : 0x80 ≤ b.toNat := by
              by_cases hb : b.toNat < 0x80
              · rw [(runeLen_ascii hb).2] at hbad
                have := hbad.1
                unfold Text.runeError at this
                omega
              · omega
            rw [hbad.1, hbad.2] at h
            exact next 0xFFFD [b] s _ (.byte b rfl hb80) rfl rfl h
          · have h' : Text.decode (b :: s) ≠ Text.runeError ∨ runeLen (b :: s) ≠ 1 := by
              by_cases h1 : Text.decode (b :: s) = Text.runeError
              · exact .inr fun h2 => hbad ⟨h1, h2⟩
              · exact .inl h1
            obtain ⟨hsc, he⟩ := Text.encode_decode (List.cons_ne_nil b s) h'
            refine next (Text.decode (b :: s)) (encode (Text.decode (b :: s))) _ _ ?_ rfl (by rw [he, List.take_append_drop]) h
            by_cases hb : b.toNat < 0x80
            · rw [(runeLen_ascii hb).2] at hsc ⊢
              refine .unescaped _ hsc (by omega) ?_ ?_
              · intro e; exact hq (UInt8.toNat_inj.mp e)
              · intro e; exact hbs (UInt8.toNat_inj.mp e)
            · have := decode_ge hb hsc he
              exact .unescaped _ hsc (by omega) (by omega) (by omega)

theorem takeWhile_all {p : UInt8 → Bool} {b : UInt8} : ∀ {s : Str}, b ∈ s.takeWhile p → p b = true
  | [], h => by cases h
  | a :: s, h => by
    rw [List.takeWhile_cons] at h
    split at h
    · rename_i ha
      rcases List.mem_cons.mp h with rfl | h
      · exact ha
      · exact takeWhile_all h
    · cases h

theorem digits1_some {s x r : Str} (h : digits1 s = some (x, r)) : s = x ++ r ∧ Digits1 x := by
  unfold digits1 at h
  split at h
  · cases h
  · rename_i ds hds
    simp only [Option.some.injEq, Prod.mk.injEq] at h
    obtain ⟨rfl, rfl⟩ := h
    refine ⟨(List.takeWhile_append_dropWhile).symm, hds, fun b hb => isDigit_iff.mp (takeWhile_all hb)⟩

theorem intPart_some {s x r : Str} (h : intPart s = some (x, r)) : s = x ++ r ∧ IntText x := by
  unfold intPart at h
  split at h
  · cases h; exact ⟨rfl, .inl rfl⟩
  · rename_i hn
    obtain ⟨rfl, h1, h2⟩ := digits1_some h
    refine ⟨rfl, .inr ?_⟩
    cases x with
    | nil => exact absurd rfl h1
    | cons b ds =>
      refine ⟨b, ds, rfl, h2 b List.mem_cons_self, ?_, fun d hd => h2 d (List.mem_cons_of_mem _ hd)⟩
      rintro rfl
      exact hn _ rfl

theorem unsignedPart_some {s x r : Str} (h : unsignedPart s = some (x, r)) : s = x ++ r ∧ ∃ i f e, x = i ++ f ++ e ∧ IntText i ∧
    (f = [] ∨ ∃ ds, Digits1 ds ∧ f = [46] ++ ds) ∧
    (e = [] ∨ ∃ x g ds, Digits1 ds ∧ (x = 101 ∨ x = 69) ∧ (g = [] ∨ g = [43] ∨ g = [45]) ∧ e = [x] ++ g ++ ds) := by
  have hf : ∀ {s x r : Str}, fracPart s = some (x, r) → s = x ++ r ∧ (x = [] ∨ ∃ ds, Digits1 ds ∧ x = [46] ++ ds) := by
    intro s x r h
    unfold fracPart at h
    split at h
    · simp only [Option.map_eq_some_iff] at h
      obtain ⟨⟨a, b⟩, h1, h2⟩ := h
      cases h2
      obtain ⟨rfl, h3⟩ := digits1_some h1
      exact ⟨rfl, .inr ⟨a, h3, rfl⟩⟩
    · cases h; exact ⟨rfl, .inl rfl⟩
  have he : ∀ {s x r : Str}, expPart s = some (x, r) → s = x ++ r ∧ (x = [] ∨ ∃ y g ds, Digits1 ds ∧ (y = 101 ∨ y = 69) ∧
      (g = [] ∨ g = [43] ∨ g = [45]) ∧ x = [y] ++ g ++ ds) := by
    intro s x r h
    unfold expPart at h
    split at h
    · cases h; exact ⟨rfl, .inl rfl⟩
    · split at h
      · rename_i y r hy
        split at h
        · cases h
        · rename_i g r'
          split at h
          · rename_i hg
            simp only [Option.map_eq_some_iff] at h
            obtain ⟨⟨a, b⟩, h1, h2⟩ := h
            cases h2
            obtain ⟨rfl, h3⟩ := digits1_some h1
            exact ⟨rfl, .inr ⟨y, [g], a, h3, hy, by rcases hg with rfl | rfl <;> simp, rfl⟩⟩
          · simp only [Option.map_eq_some_iff] at h
            obtain ⟨⟨a, b⟩, h1, h2⟩ := h
            cases h2
            obtain ⟨h4, h3⟩ := digits1_some h1
            exact ⟨by rw [h4]; rfl, .inr ⟨y, [], a, h3, hy, .inl rfl, rfl⟩⟩
      · cases h; exact ⟨rfl, .inl rfl⟩
  unfold unsignedPart at h
  split at h
  · cases h
  · rename_i i r1 h1
    split at h
    · cases h
    · rename_i f r2 h2
      split at h
      · cases h
      · rename_i e r3 h3
        cases h
        obtain ⟨e1, h1⟩ := intPart_some h1
        obtain ⟨e2, h2⟩ := hf h2
        obtain ⟨e3, h3⟩ := he h3
        exact ⟨by rw [e1, e2, e3]; simp, i, f, e, rfl, h1, h2, h3⟩

theorem number_some {s x r : Str} (h : number s = some (x, r)) : s = x ++ r ∧ NumText x := by
  unfold number at h
  split at h
  · simp only [Option.map_eq_some_iff] at h
    obtain ⟨⟨a, b⟩, h1, h2⟩ := h
    cases h2
    obtain ⟨rfl, i, f, e, rfl, h3⟩ := unsignedPart_some h1
    exact ⟨rfl, [45], i, f, e, by simp, .inr rfl, h3⟩
  · obtain ⟨rfl, i, f, e, rfl, h3⟩ := unsignedPart_some h
    exact ⟨rfl, [], i, f, e, by simp, .inl rfl, h3⟩

/-- Only spelled tokens are read as tokens. -/
theorem lexTok_some {s r : Str} {t : JTok} (h : lexTok s = some (t, r)) :
    ∃ w x, s = w ++ x ++ r ∧ (∀ b ∈ w, Blank b) ∧ TokText true t x := by
  have hs : s = s.takeWhile isSpace ++ s.dropWhile isSpace := (List.takeWhile_append_dropWhile).symm
  have hw : ∀ b ∈ s.takeWhile isSpace, Blank b := fun b hb => isSpace_iff.mp (takeWhile_all hb)
  suffices ∃ x, s.dropWhile isSpace = x ++ r ∧ TokText true t x by
    obtain ⟨x, h1, h2⟩ := this
    exact ⟨_, x, by rw [List.append_assoc, ← h1]; exact hs, hw, h2⟩
  unfold lexTok at h
  split at h
  all_goals first
    | cases h; done
    | (rename_i e; rw [e]; cases h
       first
         | exact ⟨_, rfl, .lbrack⟩
         | exact ⟨_, rfl, .rbrack⟩
         | exact ⟨_, rfl, .lbrace⟩
         | exact ⟨_, rfl, .rbrace⟩
         | exact ⟨_, rfl, .comma⟩
         | exact ⟨_, rfl, .colon⟩
         | exact ⟨[116, 114, 117, 101], rfl, .true⟩
         | exact ⟨[102, 97, 108, 115, 101], rfl, .false⟩
         | exact ⟨[110, 117, 108, 108], rfl, .null⟩
       done)
    | skip
  · rename_i e
    rw [e]
    simp only [Option.map_eq_some_iff] at h
    obtain ⟨⟨q, r'⟩, h1, h2⟩ := h
    cases h2
    obtain ⟨t, rfl, ht⟩ := unquote_some _ _ _ _ h1
    exact ⟨[34] ++ t ++ [34], by simp, .str _ _ ht⟩
  · simp only [Option.map_eq_some_iff] at h
    obtain ⟨⟨q, r'⟩, h1, h2⟩ := h
    cases h2
    obtain ⟨h3, h4⟩ := number_some h1
    exact ⟨q, h3, .num _ h4⟩

theorem spells_blanks {l : Bool} {ts : List JTok} {p : Str} : ∀ {w : Str}, (∀ b ∈ w, Blank b) → Spells l ts p → Spells l ts (w ++ p)
  | [], _, h => h
  | b :: w, hw, h => .blank b _ _ (hw b List.mem_cons_self) (spells_blanks (fun c hc => hw c (List.mem_cons_of_mem _ hc)) h)

theorem lexes_spells {s r : Str} {ts : List JTok} (h : Lexes s ts r) : ∃ p, s = p ++ r ∧ Spells true ts p := by
  induction h with
  | nil s => exact ⟨[], rfl, .nil⟩
  | cons h h' ih =>
    obtain ⟨p, rfl, hp⟩ := ih
    obtain ⟨w, x, rfl, hw, hx⟩ := lexTok_some h
    exact ⟨w ++ (x ++ p), by simp, spells_blanks hw (.tok _ _ _ _ hx hp)⟩

theorem lexes_append {s s' r : Str} {a b : List JTok} (h : Lexes s a s') (h' : Lexes s' b r) : Lexes s (a ++ b) r := by
  induction h with
  | nil s => exact h'
  | cons h1 h2 ih => exact .cons h1 (ih h')

/-! ## The grammar -/

/-- A separator, and the state after it -/
inductive Separates : TState → JTok → TState → Prop
  | element : Separates .arrayComma .comma .arrayValue
  | member : Separates .objectComma .comma .objectKey
  | name : Separates .objectColon .colon .objectValue

theorem stream_cons : ∀ {n : Nat} {m : TState} {stk : List TState} {s : Str} {t : JTok} {T : List JTok}, tokenStream n m stk s = t :: T →
    ∃ ps n' m1 m' stk' s', Lexes s (ps ++ [t]) s' ∧ T = tokenStream n' m' stk' s' ∧ t ≠ .comma ∧ t ≠ .colon ∧
      tokStep m1 stk t = some (m', stk') ∧ ((ps = [] ∧ m1 = m) ∨ ∃ p, ps = [p] ∧ Separates m p m1)
  | 0, m, stk, s, t, T, h => by cases h
  | n + 1, m, stk, s, t, T, h => by
    rw [tokenStream] at h
    split at h
    · cases h
    · rename_i p r hl
      split at h
      · cases h
      · rename_i m1 stk1 hst
        split at h
        · rename_i hp
          have hsep : Separates m p m1 ∧ stk1 = stk := by
            rcases hp with rfl | rfl
            · simp only [tokStep] at hst
              split at hst
              · rename_i hm; subst hm; cases hst; exact ⟨.element, rfl⟩
              · split at hst
                · rename_i hm; subst hm; cases hst; exact ⟨.member, rfl⟩
                · cases hst
            · simp only [tokStep] at hst
              split at hst
              · rename_i hm; subst hm; cases hst; exact ⟨.name, rfl⟩
              · cases hst
          obtain ⟨hsep, rfl⟩ := hsep
          obtain ⟨ps, n', m2, m', stk', s', h1, h2, h3, h4, h5, h6⟩ := stream_cons h
          rcases h6 with ⟨rfl, rfl⟩ | ⟨q, rfl, hq⟩
          · exact ⟨[p], n', m2, m', stk', s', .cons hl h1, h2, h3, h4, h5, .inr ⟨p, rfl, hsep⟩⟩
          · cases hsep <;> cases hq
        · rename_i hp
          cases h
          exact ⟨[], n, m, m1, stk1, r, .cons hl (.nil r), rfl, fun e => hp (.inl e), fun e => hp (.inr e), hst, .inl ⟨rfl, rfl⟩⟩

/-- What a call of `decodeElem` reads, and the state after it -/
inductive Item : TState → List JTok → TState → Prop
  | val (m : TState) (v : List JTok) (hm : m.value = true) (h : JVal v) : Item m v m.after
  | more (v : List JTok) (h : JVal v) : Item .arrayComma (.comma :: v) .arrayComma
  | key (k : Str) : Item .objectStart [.str k] .objectColon
  | nextKey (k : Str) : Item .objectComma [.comma, .str k] .objectColon
  | member (v : List JTok) (h : JVal v) : Item .objectColon (.colon :: v) .objectComma

/-- The states in which `decodeElem` is called -/
inductive Calls : TState → Option JTok → Prop
  | top : Calls .topValue none
  | first : Calls .arrayStart (some .rbrack)
  | next : Calls .arrayComma (some .rbrack)
  | key : Calls .objectStart (some .rbrace)
  | nextKey : Calls .objectComma (some .rbrace)
  | colon : Calls .objectColon (some .rbrace)

/-- What the next token can be -/
theorem head_cases {n : Nat} {m : TState} {stk : List TState} {s : Str} {t : JTok} {T : List JTok} {stop : Option JTok} (hc : Calls m stop)
    (h : tokenStream n m stk s = t :: T) :
    ∃ ps n' m' stk' s', Lexes s (ps ++ [t]) s' ∧ T = tokenStream n' m' stk' s' ∧
      ((t.scalar = true ∧ stk' = stk ∧ Item m (ps ++ [t]) m') ∨
       (t = .lbrack ∧ m' = .arrayStart ∧ ∃ m1, stk' = m1 :: stk ∧ ∀ v, JVal v → Item m (ps ++ v) m1.after) ∨
       (t = .lbrace ∧ m' = .objectStart ∧ ∃ m1, stk' = m1 :: stk ∧ ∀ v, JVal v → Item m (ps ++ v) m1.after) ∨
       (some t = stop ∧ ps = [] ∧ m ≠ .objectColon ∧ ∃ m1, stk = m1 :: stk' ∧ m' = m1.after)) := by
  obtain ⟨ps, n', m1, m', stk', s', h1, h2, h3, h4, h5, h6⟩ := stream_cons h
  refine ⟨ps, n', m', stk', s', h1, h2, ?_⟩
  have hval : ∀ v, m1.value = true → JVal v → Item m (ps ++ v) m1.after := by
    intro v hm hv
    rcases h6 with ⟨rfl, rfl⟩ | ⟨p, rfl, hp⟩
    · exact .val _ v hm hv
    · cases hp
      · exact .more v hv
      · cases hm
      · exact .member v hv
  have hpop : ∀ a b : TState, (a = .arrayStart ∧ b = .arrayComma) ∨ (a = .objectStart ∧ b = .objectComma) → m1 = a ∨ m1 = b → ps = [] ∧ m1 = m := by
    intro a b hab hm
    rcases h6 with h | ⟨p, rfl, hp⟩
    · exact h
    · rcases hab with ⟨rfl, rfl⟩ | ⟨rfl, rfl⟩ <;> rcases hm with rfl | rfl <;> cases hp
  cases t with
  | comma => exact absurd rfl h3
  | colon => exact absurd rfl h4
  | lbrack =>
    simp only [tokStep] at h5
    split at h5
    · rename_i hm; cases h5; exact .inr (.inl ⟨rfl, rfl, m1, rfl, fun v => hval v hm⟩)
    · cases h5
  | lbrace =>
    simp only [tokStep] at h5
    split at h5
    · rename_i hm; cases h5; exact .inr (.inr (.inl ⟨rfl, rfl, m1, rfl, fun v => hval v hm⟩))
    · cases h5
  | rbrack =>
    simp only [tokStep] at h5
    split at h5
    · rename_i hm
      obtain ⟨rfl, rfl⟩ := hpop _ _ (.inl ⟨rfl, rfl⟩) hm
      split at h5
      · cases h5
      · cases h5
        refine .inr (.inr (.inr ⟨?_, rfl, ?_, _, rfl, rfl⟩))
        · rcases hm with rfl | rfl <;> cases hc <;> rfl
        · rcases hm with rfl | rfl <;> simp
    · cases h5
  | rbrace =>
    simp only [tokStep] at h5
    split at h5
    · rename_i hm
      obtain ⟨rfl, rfl⟩ := hpop _ _ (.inr ⟨rfl, rfl⟩) hm
      split at h5
      · cases h5
      · cases h5
        refine .inr (.inr (.inr ⟨?_, rfl, ?_, _, rfl, rfl⟩))
        · rcases hm with rfl | rfl <;> cases hc <;> rfl
        · rcases hm with rfl | rfl <;> simp
    · cases h5
  | str k =>
    simp only [tokStep] at h5
    split at h5
    · rename_i hm
      cases h5
      refine .inl ⟨rfl, rfl, ?_⟩
      rcases h6 with ⟨rfl, rfl⟩ | ⟨p, rfl, hp⟩
      · rcases hm with rfl | rfl
        · exact .key k
        · cases hc
      · rcases hm with rfl | rfl
        · cases hp
        · cases hp; exact .nextKey k
    · split at h5
      · rename_i hm; cases h5; exact .inl ⟨rfl, rfl, hval _ hm (.scalar _ rfl)⟩
      · cases h5
  | num x =>
    simp only [tokStep] at h5
    split at h5
    · rename_i hm; cases h5; exact .inl ⟨rfl, rfl, hval _ hm (.scalar _ rfl)⟩
    · cases h5
  | bool b =>
    simp only [tokStep] at h5
    split at h5
    · rename_i hm; cases h5; exact .inl ⟨rfl, rfl, hval _ hm (.scalar _ rfl)⟩
    · cases h5
  | null =>
    simp only [tokStep] at h5
    split at h5
    · rename_i hm; cases h5; exact .inl ⟨rfl, rfl, hval _ hm (.scalar _ rfl)⟩
    · cases h5

end Verif.Stream
