import Verif.Stream.JsonLemmas
import Verif.Stream.Walk
import Verif.Binary.Lemmas
/-!
# Reading what was written
-/
set_option autoImplicit false
set_option linter.unusedVariables false
set_option linter.unusedSimpArgs false
namespace Verif.Stream
open Verif.Value (Str runeLen)
open Verif.Text (encode Scalar)

/-! ## Texts -/

/-- A well formed UTF-8 text -/
def Valid (s : Str) : Prop := ∃ cs : List Nat, (∀ c ∈ cs, Scalar c) ∧ s = cs.flatMap encode

theorem encode_ne {c : Nat} : encode c ≠ [] := by
  unfold encode
  repeat' split
  all_goals simp

theorem repair_cons {c : Nat} (hc : Scalar c) (r : Str) : repair (encode c ++ r) = encode c ++ repair r := by
  obtain ⟨h1, h2⟩ := Text.decode_encode hc r
  cases he : encode c ++ r with
  | nil => simp [encode_ne] at he
  | cons b t =>
    rw [repair, ← he, h1, h2, List.drop_left]

theorem repair_valid {s : Str} (hs : Valid s) : repair s = s := by
  obtain ⟨cs, hc, rfl⟩ := hs
  induction cs with
  | nil => rw [List.flatMap_nil, repair]
  | cons c cs ih =>
    rw [List.flatMap_cons, repair_cons (hc c List.mem_cons_self), ih fun x hx => hc x (List.mem_cons_of_mem _ hx)]

theorem valid_ascii : ∀ {s : Str}, (∀ b ∈ s, b.toNat < 128) → Valid s
  | [], _ => ⟨[], by simp, rfl⟩
  | b :: s, hs => by
    obtain ⟨cs, h1, h2⟩ := valid_ascii (s := s) fun x hx => hs x (List.mem_cons_of_mem _ hx)
    have hb := hs b List.mem_cons_self
    refine ⟨b.toNat :: cs, ?_, ?_⟩
    · intro c hc
      rcases List.mem_cons.mp hc with rfl | hc
      · exact .inl (by omega)
      · exact h1 c hc
    · rw [List.flatMap_cons, ← h2]
      have : encode b.toNat = [b] := by
        unfold encode
        rw [if_pos (by omega), Text.u8_ext rfl]
      rw [this]
      rfl

theorem char_ascii (n : Nat) (h : n < 64) : (Binary.char .std n).toNat < 128 := by
  have : ∀ n : _root_.Fin 64, (Binary.char .std n.val).toNat < 128 := by decide +kernel
  exact this ⟨n, h⟩

theorem text_ascii (bs : List UInt8) : ∀ b ∈ Binary.text bs, b.toNat < 128 := by
  unfold Binary.text
  fun_induction Binary.encode .std bs with
  | case1 a b c r v ih =>
    have ha := a.toNat_lt; have hb := b.toNat_lt; have hc := c.toNat_lt
    intro x hx
    simp only [List.mem_cons] at hx
    rcases hx with rfl | rfl | rfl | rfl | hx
    · exact char_ascii _ (by omega)
    · exact char_ascii _ (by omega)
    · exact char_ascii _ (by omega)
    · exact char_ascii _ (by omega)
    · exact ih x hx
  | case2 a b v =>
    have ha := a.toNat_lt; have hb := b.toNat_lt
    intro x hx
    simp only [List.mem_cons, List.not_mem_nil, or_false] at hx
    rcases hx with rfl | rfl | rfl | rfl
    · exact char_ascii _ (by omega)
    · exact char_ascii _ (by omega)
    · exact char_ascii _ (by omega)
    · decide
  | case3 a v =>
    have ha := a.toNat_lt
    intro x hx
    simp only [List.mem_cons, List.not_mem_nil, or_false] at hx
    rcases hx with rfl | rfl | rfl | rfl
    · exact char_ascii _ (by omega)
    · exact char_ascii _ (by omega)
    · decide
    · decide
  | case4 => intro x hx; cases hx

theorem int64_format {v : Int} (h : - 2 ^ 63 ≤ v) (h' : v < 2 ^ 63) : int64 (Text.formatInt v) = some v := by
  unfold Text.formatInt
  obtain ⟨b, t, h1, h2, h3⟩ := Text.digits_head v.natAbs
  have hu := Text.parseDigits_digits v.natAbs
  split
  · rw [List.cons_append, List.nil_append]
    rw [h1] at hu ⊢
    unfold int64
    simp only [hu, Option.bind_some]
    rw [if_pos (by omega)]
    congr 1; omega
  · unfold Text.Dig at h2
    rw [h1] at hu ⊢
    unfold int64
    split
    · rename_i h; cases h
    · rename_i h; cases h; exact absurd h2.1 (by decide)
    · rename_i h; cases h; exact absurd h2.1 (by decide)
    · rw [hu, Option.bind_some, if_pos (by omega)]
      congr 1; omega

/-! ## The calls that the encoder gets -/

/-- What is assumed of the texts and atoms of the objects, for `Fine` -/
structure Atoms (o : Options) (h : Heap) (PA : Atom → Prop) (PF : Str → Prop) : Prop where
  slot : ∀ p x a, h p = some x → Ref.atom a ∈ slots x → PA a
  bin : ∀ p bs, h p = some (.bin bs) → PA (.str (Binary.text bs))
  time : ∀ p t, h p = some (.time t) → PA (.str (o.timeText t))
  typ : ∀ p t, h p = some (.typ t) → PA (.str t)
  name : ∀ p t names n, h p = some (.typ t) → o.names = some names → names t = some n → PA (.str n)
  words : ∀ s ∈ [o.dialect.typeKey, o.dialect.valueKey, o.dialect.map, o.dialect.sensitive, o.dialect.binary, o.dialect.time, o.dialect.alias],
    PA (.str s)
  first : ∀ p s v es, h p = some (.map ((.atom (.str s), v) :: es)) → plainMap jsonConsumer ((.atom (.str s), v) :: es) = true → PF s
  typeKey : PF o.dialect.typeKey

section
variable {o : Options} {h : Heap} {PA : Atom → Prop} {PF : Str → Prop} {PR : Int → Prop}

theorem fine_tagged (ha : Atoms o h PA PF) {name : Str} {v : Ev} (hn : PA (.str name)) (hv : Fine PA PR PF v) :
    Fine PA PR PF (tagged o.dialect name v) := by
  unfold tagged
  simp only [Fine, FineMap]
  refine ⟨⟨ha.words _ (by simp), hn, ha.words _ (by simp), hv, trivial⟩, ?_⟩
  rintro s r ⟨⟩
  exact ha.typeKey

theorem fine_string {lvl : Nat} (hR : lvl = 0 ∨ ∀ n, PR n) {s s' : St} {x : Str} {ev : Ev} (hx : PA (.str x)) (he : emitString jsonConsumer lvl s x = .ok (s', ev)) :
    Fine PA PR PF ev := by
  unfold emitString at he
  split at he
  · unfold process at he
    split at he
    · cases he; simpa only [Fine] using hx
    · rename_i hl
      split at he
      · cases he; simp only [Fine]; exact (hR.resolve_left hl) _
      · cases he; simpa only [Fine] using hx
  · cases he; simpa only [Fine] using hx

theorem emit_key (m : Nat) (s : St) (x : Str) : emit o jsonConsumer h m 0 s (.atom (.str x)) = .ok (s.inc 1, .add (.str x)) := by
  rw [emit_atom]
  simp only [emit, emitString]
  split
  · simp only [process, if_true]
  · rfl

theorem fine_seq {m : Nat} : ∀ (rs : List (Nat × Ref)) (s s' : St) (evs : List Ev),
    (∀ e ∈ rs, ∀ s s' ev, emit o jsonConsumer h m e.1 s e.2 = .ok (s', ev) → Fine PA PR PF ev) →
      emitSeq o jsonConsumer h m s rs = .ok (s', evs) → FineAll PA PR PF evs
  | [], s, s', evs, ih, he => by
    simp only [emitSeq] at he
    cases he
    simp only [FineAll]
  | (l, r) :: rs, s, s', evs, ih, he => by
    simp only [emitSeq] at he
    cases h1 : emit o jsonConsumer h m l s r with
    | panic => simp [h1] at he
    | deep => simp [h1] at he
    | ok y =>
      cases h2 : emitSeq o jsonConsumer h m y.1 rs with
      | panic => simp [h1, h2] at he
      | deep => simp [h1, h2] at he
      | ok z =>
        simp only [h1, h2] at he
        cases he
        simp only [FineAll]
        exact ⟨ih (l, r) List.mem_cons_self _ _ _ h1, fine_seq rs y.1 z.1 z.2 (fun e he => ih e (List.mem_cons_of_mem _ he)) h2⟩

theorem fine_entries {m lvl : Nat} : ∀ (es : List (Ref × Ref)) (s s' : St) (evs : List Ev), stringKeys es = true →
    (∀ e ∈ es, (∀ a, e.1 = .atom a → PA a) ∧ ∀ s s' ev, emit o jsonConsumer h m lvl s e.2 = .ok (s', ev) → Fine PA PR PF ev) →
      emitEntries (emit o jsonConsumer h m 0) (emit o jsonConsumer h m lvl) s es = .ok (s', evs) → FineMap PA PR PF evs
        ∧ ∀ x r, evs = .add (.str x) :: r → ∃ v es', es = (.atom (.str x), v) :: es'
  | [], s, s', evs, hk, ih, he => by
    simp only [emitEntries] at he
    cases he
    exact ⟨by simp only [FineMap], by rintro x r ⟨⟩⟩
  | (a, b) :: es, s, s', evs, hk, ih, he => by
    obtain ⟨x, ex, hk2⟩ : ∃ x, a = .atom (.str x) ∧ stringKeys es = true := by
      simp only [stringKeys, List.all_cons, Bool.and_eq_true] at hk
      obtain ⟨h1, h2⟩ := hk
      split at h1
      · exact ⟨_, rfl, h2⟩
      · cases h1
    subst ex
    · simp only [emitEntries, emit_key] at he
      cases h1 : emit o jsonConsumer h m lvl (s.inc 1) b with
      | panic => simp [h1] at he
      | deep => simp [h1] at he
      | ok y =>
        cases h2 : emitEntries (emit o jsonConsumer h m 0) (emit o jsonConsumer h m lvl) y.1 es with
        | panic => simp [h1, h2] at he
        | deep => simp [h1, h2] at he
        | ok z =>
          simp only [h1, h2] at he
          cases he
          have hz := fine_entries es y.1 z.1 z.2 hk2 (fun e he => ih e (List.mem_cons_of_mem _ he)) h2
          refine ⟨?_, ?_⟩
          · simp only [FineMap]
            exact ⟨(ih _ List.mem_cons_self).1 _ rfl, (ih _ List.mem_cons_self).2 _ _ _ h1, hz.1⟩
          · rintro x r ⟨⟩
            exact ⟨b, es, rfl⟩

theorem process_fine {lvl : Nat} (hR : lvl = 0 ∨ ∀ n, PR n) {s s' : St} {x : Key} {f : St → Out (St × Ev)} {ev : Ev}
    (hf : ∀ s1, f s1 = .ok (s', ev) → Fine PA PR PF ev) (hp : process lvl s x f = .ok (s', ev)) :
    Fine PA PR PF ev := by
  unfold process at hp
  split at hp
  · exact hf s hp
  · rename_i hl
    split at hp
    · cases hp; simp only [Fine]; exact (hR.resolve_left hl) _
    · exact hf _ hp

theorem emit_fine (ha : Atoms o h PA PF) (hn : ∀ p x names, h p = some (.typ x) → o.names = some names → names x ≠ none)
    (hv : ∀ p es i, h p = some (.map es) → verbatim o.dialect es = some i → PR i.toInt) :
    ∀ (m lvl : Nat) (r : Ref) (s s' : St) (ev : Ev), lvl ≤ 1 → (lvl = 0 ∨ ∀ n, PR n) → (∀ a, r = .atom a → PA a) →
      emit o jsonConsumer h m lvl s r = .ok (s', ev) → Fine PA PR PF ev
  | m, lvl, .atom a, s, s', ev, hl, hR, hr, he => by
    rw [emit_atom] at he
    have := hr a rfl
    cases a with
    | str x => exact fine_string hR this he
    | _ => cases he; simpa only [Fine] using this
  | 0, lvl, .obj p, s, s', ev, hl, hR, hr, he => by simp [emit] at he
  | m + 1, lvl, .obj w, s, s', ev, hl, hR, hr, he => by
    have ih : ∀ x, h w = some x → ∀ l, l ≤ 1 → (l = 0 ∨ ∀ n, PR n) → ∀ r ∈ slots x, ∀ s s' ev, emit o jsonConsumer h m l s r = .ok (s', ev) → Fine PA PR PF ev :=
      fun x hx l hl hR r hr s s' ev he => emit_fine ha hn hv m l r s s' ev hl hR (fun a e => ha.slot w x a hx (e ▸ hr)) he
    cases hw : h w with
    | none => simp [emit, hw] at he
    | some x =>
      have ih := ih x hw
      simp only [emit, hw] at he
      cases x with
      | arr es =>
        refine process_fine hR ?_ he
        intro s1 h3
        simp only [emitAll_seq] at h3
        obtain ⟨y, h4, h5⟩ := Out.map_ok h3
        cases h5
        simp only [Fine]
        refine fine_seq _ _ _ _ ?_ h4
        intro e he
        obtain ⟨r, hr, rfl⟩ := List.mem_map.mp he
        exact ih lvl hl hR r hr
      | map es =>
        simp only at he
        split at he
        · rename_i hp
          split at he
          · rename_i hvb; cases he; simp only [Fine]; exact hv w es _ hw hvb
          · refine process_fine hR ?_ he
            intro s1 h3
            have e0 : (if lvl = 1 then 0 else lvl) = 0 := by split <;> omega
            rw [e0] at h3
            obtain ⟨y, h4, h5⟩ := Out.map_ok h3
            cases h5
            simp only [Fine]
            have hk : stringKeys es = true := by simpa [jsonConsumer] using hp
            obtain ⟨h6, h7⟩ := fine_entries (PA := PA) (PF := PF) (PR := PR) es _ y.1 y.2 hk (fun e he =>
              ⟨fun a ea => ha.slot w _ a hw (List.mem_flatMap.mpr ⟨e, he, by simp [ea]⟩),
                ih lvl hl hR e.2 (List.mem_flatMap.mpr ⟨e, he, by simp⟩)⟩) h4
            refine ⟨h6, ?_⟩
            intro x r e
            obtain ⟨v, es', rfl⟩ := h7 x r e
            exact ha.first w x v es' hw hp
        · split at he
          · cases he
          · refine process_fine hR ?_ he
            intro s1 h3
            simp only [emitEntries_seq] at h3
            obtain ⟨y, h4, h5⟩ := Out.map_ok h3
            cases h5
            refine fine_tagged ha (ha.words _ (by simp)) ?_
            simp only [Fine]
            refine fine_seq _ _ _ _ ?_ h4
            intro e he
            obtain ⟨y, hy, he⟩ := List.mem_flatMap.mp he
            rcases List.mem_cons.mp he with rfl | he
            · exact ih 0 (by omega) (.inl rfl) y.1 (List.mem_flatMap.mpr ⟨y, hy, by simp⟩)
            · simp only [List.mem_singleton] at he
              subst he
              exact ih lvl hl hR y.2 (List.mem_flatMap.mpr ⟨y, hy, by simp⟩)
      | sens v =>
        refine process_fine hR ?_ he
        intro s1 h3
        split at h3
        · cases h3
        · obtain ⟨y, h4, h5⟩ := Out.map_ok h3
          cases h5
          exact fine_tagged ha (ha.words _ (by simp)) (ih lvl hl hR v (by simp [slots]) _ _ _ h4)
      | bin bs =>
        refine process_fine hR ?_ he
        intro s1 h3
        simp only [jsonConsumer, Bool.false_eq_true, if_false] at h3
        split at h3
        · cases h3
        · obtain ⟨y, h4, h5⟩ := Out.map_ok h3
          cases h5
          exact fine_tagged ha (ha.words _ (by simp)) (fine_string hR (ha.bin w bs hw) h4)
      | time t =>
        refine process_fine hR ?_ he
        intro s1 h3
        simp only [jsonConsumer, Bool.false_eq_true, if_false] at h3
        split at h3
        · cases h3
        · obtain ⟨y, h4, h5⟩ := Out.map_ok h3
          cases h5
          exact fine_tagged ha (ha.words _ (by simp)) (fine_string hR (ha.time w t hw) h4)
      | typ x =>
        refine process_fine hR ?_ he
        intro s1 h3
        cases hN : o.names with
        | none =>
          simp only [hN] at h3
          cases h3
          simp only [Fine, FineMap]
          refine ⟨⟨ha.words _ (by simp), ha.typ w x hw, trivial⟩, ?_⟩
          rintro s r ⟨⟩
          exact ha.typeKey
        | some names =>
          cases hx : names x with
          | none => exact absurd hx (hn w x names hw hN)
          | some name =>
            simp only [hN, hx] at h3
            obtain ⟨y, h4, h5⟩ := Out.map_ok h3
            cases h5
            simp only [emitAll] at h4
            cases e1 : emitString jsonConsumer lvl (s1.inc 5) name with
            | panic => simp [e1] at h4
            | deep => simp [e1] at h4
            | ok y1 =>
              cases e2 : emitString jsonConsumer lvl y1.1 x with
              | panic => simp [e1, e2] at h4
              | deep => simp [e1, e2] at h4
              | ok y2 =>
                simp only [e1, e2] at h4
                cases h4
                refine fine_tagged ha (ha.words _ (by simp)) ?_
                simp only [Fine, FineAll]
                exact ⟨fine_string hR (ha.name w x names name hw hN hx) e1, fine_string hR (ha.typ w x hw) e2, trivial⟩

end

/-! ## References -/

mutual
theorem fine_walk {PA : Atom → Prop} {PF : Str → Prop} {B : Nat} : ∀ (e : Ev) (n n' : Nat), walk n e = some n' → n' ≤ B →
    Fine PA (fun _ => True) PF e → Fine PA (fun i => 0 ≤ i ∧ i < B) PF e ∧ n ≤ n'
  | .add a, n, n', hw, hb, hf => by
    simp only [walk, Option.some.injEq] at hw
    simp only [Fine] at hf ⊢
    exact ⟨hf, by omega⟩
  | .addBin a, n, n', hw, hb, hf => by simp [Fine] at hf
  | .addTime a, n, n', hw, hb, hf => by simp [Fine] at hf
  | .ref i, n, n', hw, hb, hf => by
    simp only [walk] at hw
    split at hw
    · rename_i h; cases hw
      simp only [Fine]
      omega
    · cases hw
  | .arr es, n, n', hw, hb, hf => by
    simp only [walk] at hw
    simp only [Fine] at hf ⊢
    have := fineAll_walk es (n + 1) n' hw hb hf
    exact ⟨this.1, by omega⟩
  | .map es, n, n', hw, hb, hf => by
    simp only [walk] at hw
    simp only [Fine] at hf ⊢
    have := fineMap_walk es (n + 1) n' hw hb hf.1
    exact ⟨⟨this.1, hf.2⟩, by omega⟩
theorem fineAll_walk {PA : Atom → Prop} {PF : Str → Prop} {B : Nat} : ∀ (es : List Ev) (n n' : Nat), walkAll n es = some n' → n' ≤ B →
    FineAll PA (fun _ => True) PF es → FineAll PA (fun i => 0 ≤ i ∧ i < B) PF es ∧ n ≤ n'
  | [], n, n', hw, hb, hf => by
    simp only [walkAll, Option.some.injEq] at hw
    simp only [FineAll]
    exact ⟨trivial, by omega⟩
  | e :: es, n, n', hw, hb, hf => by
    simp only [walkAll] at hw
    cases h1 : walk n e with
    | none => simp [h1] at hw
    | some m =>
      simp only [h1] at hw
      simp only [FineAll] at hf ⊢
      have h2 := fineAll_walk es m n' hw hb hf.2
      have h3 := fine_walk (B := B) e n m h1 (Nat.le_trans h2.2 hb) hf.1
      exact ⟨⟨h3.1, h2.1⟩, by omega⟩
theorem fineMap_walk {PA : Atom → Prop} {PF : Str → Prop} {B : Nat} : ∀ (es : List Ev) (n n' : Nat), walkAll n es = some n' → n' ≤ B →
    FineMap PA (fun _ => True) PF es → FineMap PA (fun i => 0 ≤ i ∧ i < B) PF es ∧ n ≤ n'
  | [], n, n', hw, hb, hf => by
    simp only [walkAll, Option.some.injEq] at hw
    simp only [FineMap]
    exact ⟨trivial, by omega⟩
  | .add (.str x) :: e :: es, n, n', hw, hb, hf => by
    simp only [walkAll, walk] at hw
    cases h1 : walk (n + 1) e with
    | none => simp [h1] at hw
    | some m =>
      simp only [h1] at hw
      simp only [FineMap] at hf ⊢
      have h2 := fineMap_walk es m n' hw hb hf.2.2
      have h3 := fine_walk (B := B) e (n + 1) m h1 (Nat.le_trans h2.2 hb) hf.2.1
      exact ⟨⟨hf.1, h3.1, h2.1⟩, by omega⟩
  | [.add (.str s)], _, _, _, _, hf => by simp [FineMap] at hf
  | .add .nil :: _, _, _, _, _, hf => by simp [FineMap] at hf
  | .add (.bool _) :: _, _, _, _, _, hf => by simp [FineMap] at hf
  | .add (.int _) :: _, _, _, _, _, hf => by simp [FineMap] at hf
  | .add (.float _) :: _, _, _, _, _, hf => by simp [FineMap] at hf
  | .addBin _ :: _, _, _, _, _, hf => by simp [FineMap] at hf
  | .addTime _ :: _, _, _, _, _, hf => by simp [FineMap] at hf
  | .ref _ :: _, _, _, _, _, hf => by simp [FineMap] at hf
  | .arr _ :: _, _, _, _, _, hf => by simp [FineMap] at hf
  | .map _ :: _, _, _, _, _, hf => by simp [FineMap] at hf
end

/-! ## Decoding -/

/-- An atom that is read back -/
def JAtom (E : JEnv) : Atom → Prop
  | .str s => repair s = s
  | .float f => ∃ x, E.floatText f = some x ∧ int64 x = none ∧ E.parseFloat x = f
  | _ => True

/-- A reference that is read back if `rk` is the key of references: the encoder always writes that of the dgo dialect. -/
def SmallRef (rk : Str) (n : Int) : Prop := (0 ≤ n ∧ n < 2 ^ 63) ∧ rk = dgoDialect.refKey

mutual
def esize : Ev → Nat
  | .arr es => 1 + esizeAll es
  | .map es => 1 + esizeAll es
  | _ => 1
def esizeAll : List Ev → Nat
  | [] => 1
  | e :: es => 1 + esize e + esizeAll es
end

theorem strip_append (a b : List JTok) : strip (a ++ b) = strip a ++ strip b := by simp [strip]

theorem strip_pre (st : JState) : strip (pre st) = [] := by cases st <;> rfl

theorem strip_seq : ∀ (l : List (List JTok)) (st : JState), strip (seqToks st l) = l.flatMap strip
  | [], st => rfl
  | t :: l, st => by
    simp only [seqToks, strip_append, strip_pre, List.nil_append, strip_seq l, List.flatMap_cons]

theorem scalar_strip {t : JTok} (h : t.scalar = true) : strip [t] = [t] := by cases t <;> simp_all [JTok.scalar, strip]

/-- The first token of a value is not a closing one. -/
theorem jtoks_head {E : JEnv} {PA : Atom → Prop} {PR : Int → Prop} {PF : Str → Prop} {e : Ev} {ts : List JTok} (hf : Fine PA PR PF e)
    (ht : jtoks E e = some ts) : ∃ t l, strip ts = t :: l ∧ t ≠ .rbrace ∧ t ≠ .rbrack := by
  cases e with
  | add a =>
    simp only [jtoks, Option.map_eq_some_iff] at ht
    obtain ⟨t, h1, rfl⟩ := ht
    have hs := jwrite_scalar h1
    refine ⟨t, [], scalar_strip hs, ?_, ?_⟩ <;> rintro rfl <;> cases hs
  | addBin a => simp [Fine] at hf
  | addTime a => simp [Fine] at hf
  | ref n =>
    simp only [jtoks, Option.some.injEq] at ht
    subst ht
    exact ⟨.lbrace, _, rfl, by decide, by decide⟩
  | arr es =>
    simp only [jtoks, Option.map_eq_some_iff] at ht
    obtain ⟨l, h1, rfl⟩ := ht
    exact ⟨.lbrack, strip (seqToks .firstInArray l ++ [.rbrack]), by
      rw [List.append_assoc, strip_append]; rfl, by decide, by decide⟩
  | map es =>
    simp only [jtoks, Option.map_eq_some_iff] at ht
    obtain ⟨l, h1, rfl⟩ := ht
    exact ⟨.lbrace, strip (seqToks .firstInObject l ++ [.rbrace]), by
      rw [List.append_assoc, strip_append]; rfl, by decide, by decide⟩

theorem jwrite_some {E : JEnv} {a : Atom} (ha : JAtom E a) : ∃ t, jwrite E a = some t := by
  cases a with
  | float f => obtain ⟨x, h, _⟩ := ha; exact ⟨.num x, by simp only [jwrite, h, Option.map_some]⟩
  | nil => exact ⟨_, rfl⟩
  | bool b => exact ⟨_, rfl⟩
  | int b => exact ⟨_, rfl⟩
  | str b => exact ⟨_, rfl⟩

mutual
theorem jtoks_some {E : JEnv} {PR : Int → Prop} {PF : Str → Prop} : ∀ e : Ev, Fine (JAtom E) PR PF e → ∃ ts, jtoks E e = some ts
  | .add a, hf => by
    simp only [Fine] at hf
    obtain ⟨t, ht⟩ := jwrite_some hf
    exact ⟨[t], by simp only [jtoks, ht, Option.map_some]⟩
  | .addBin a, hf => by simp [Fine] at hf
  | .addTime a, hf => by simp [Fine] at hf
  | .ref n, hf => ⟨_, by rw [jtoks]⟩
  | .arr es, hf => by
    simp only [Fine] at hf
    obtain ⟨l, hl⟩ := jtoksAll_some es hf
    exact ⟨_, by rw [jtoks, hl]; rfl⟩
  | .map es, hf => by
    simp only [Fine] at hf
    obtain ⟨l, hl⟩ := jtoksMap_some es hf.1
    exact ⟨_, by rw [jtoks, hl]; rfl⟩
theorem jtoksAll_some {E : JEnv} {PR : Int → Prop} {PF : Str → Prop} : ∀ es : List Ev, FineAll (JAtom E) PR PF es → ∃ l, jtoksAll E es = some l
  | [], hf => ⟨[], by rw [jtoksAll]⟩
  | e :: es, hf => by
    simp only [FineAll] at hf
    obtain ⟨t, ht⟩ := jtoks_some e hf.1
    obtain ⟨l, hl⟩ := jtoksAll_some es hf.2
    exact ⟨t :: l, by simp only [jtoksAll, ht, hl]⟩
theorem jtoksMap_some {E : JEnv} {PR : Int → Prop} {PF : Str → Prop} : ∀ es : List Ev, FineMap (JAtom E) PR PF es → ∃ l, jtoksAll E es = some l
  | [], hf => ⟨[], by rw [jtoksAll]⟩
  | .add (.str x) :: e :: es, hf => by
    simp only [FineMap] at hf
    obtain ⟨t, ht⟩ := jtoks_some e hf.2.1
    obtain ⟨l, hl⟩ := jtoksMap_some es hf.2.2
    exact ⟨[.str (repair x)] :: t :: l, by simp only [jtoksAll, jtoks, jwrite, Option.map_some, ht, hl]⟩
  | [.add (.str s)], hf => by simp [FineMap] at hf
  | .add .nil :: _, hf => by simp [FineMap] at hf
  | .add (.bool _) :: _, hf => by simp [FineMap] at hf
  | .add (.int _) :: _, hf => by simp [FineMap] at hf
  | .add (.float _) :: _, hf => by simp [FineMap] at hf
  | .addBin _ :: _, hf => by simp [FineMap] at hf
  | .addTime _ :: _, hf => by simp [FineMap] at hf
  | .ref _ :: _, hf => by simp [FineMap] at hf
  | .arr _ :: _, hf => by simp [FineMap] at hf
  | .map _ :: _, hf => by simp [FineMap] at hf
end

theorem jloop_cons {elem : List JTok → Out (List JTok × Option Ev)} {n : Nat} {ts ts1 ts2 : List JTok} {e : Ev} {es : List Ev}
    (h1 : elem ts = .ok (ts1, some e)) (h2 : jloop elem n ts1 = .ok (ts2, es)) : jloop elem (n + 1) ts = .ok (ts2, e :: es) := by
  simp only [jloop, h1, h2]

theorem jloop_nil {E : JEnv} {rk : Str} {stop : JTok} {n m : Nat} {rest : List JTok} :
    jloop (jelem E rk (m + 1) (some stop)) (n + 1) (stop :: rest) = .ok (rest, []) := by
  simp only [jloop, jelem, if_true]

theorem jelem_atom {E : JEnv} {rk : Str} {a : Atom} (ha : JAtom E a) {t : JTok} (ht : jwrite E a = some t) {stop : Option JTok} (hs : some t ≠ stop)
    (n : Nat) (rest : List JTok) : jelem E rk (n + 1) stop (t :: rest) = .ok (rest, some (.add a)) := by
  cases a with
  | nil => cases ht; simp only [jelem, if_neg hs]
  | bool b => cases ht; simp only [jelem, if_neg hs]
  | int i =>
    cases ht
    have h1 := BitVec.toInt_lt (x := i)
    have h2 := BitVec.le_toInt (x := i)
    have h3 : int64 (Text.formatInt i.toInt) = some i.toInt := int64_format (by simpa using h2) (by simpa using h1)
    simp only [jelem, if_neg hs, h3, BitVec.ofInt_toInt]
  | float f =>
    obtain ⟨x, h1, h2, h3⟩ := ha
    simp only [jwrite, h1, Option.map_some, Option.some.injEq] at ht
    subst ht
    simp only [jelem, if_neg hs, h2, h3]
  | str s =>
    simp only [JAtom] at ha
    simp only [jwrite, ha, Option.some.injEq] at ht
    subst ht
    simp only [jelem, if_neg hs]

theorem stop_ne {stop : Option JTok} {t : JTok} (hstop : stop = none ∨ stop = some .rbrace ∨ stop = some .rbrack) (h1 : t ≠ .rbrace)
    (h2 : t ≠ .rbrack) : some t ≠ stop := by
  rcases hstop with rfl | rfl | rfl
  · simp
  · simpa using h1
  · simpa using h2

mutual
theorem jelem_read {E : JEnv} {rk : Str} : ∀ (e : Ev) (ts rest : List JTok) (n : Nat) (stop : Option JTok),
    (stop = none ∨ stop = some .rbrace ∨ stop = some .rbrack) →
    Fine (JAtom E) (SmallRef rk) (fun s => s ≠ rk) e → jtoks E e = some ts → esize e ≤ n →
      jelem E rk n stop (strip ts ++ rest) = .ok (rest, some e)
  | .add a, ts, rest, n, stop, hstop, hf, ht, hn => by
    obtain ⟨n, rfl⟩ : ∃ m, n = m + 1 := ⟨n - 1, by simp only [esize] at hn; omega⟩
    simp only [Fine] at hf
    simp only [jtoks, Option.map_eq_some_iff] at ht
    obtain ⟨t, h1, rfl⟩ := ht
    have hs := jwrite_scalar h1
    rw [scalar_strip hs]
    exact jelem_atom hf h1 (stop_ne hstop (by rintro rfl; cases hs) (by rintro rfl; cases hs)) n rest
  | .addBin a, _, _, _, _, _, hf, _, _ => by simp [Fine] at hf
  | .addTime a, _, _, _, _, _, hf, _, _ => by simp [Fine] at hf
  | .ref i, ts, rest, n, stop, hstop, hf, ht, hn => by
    obtain ⟨n, rfl⟩ : ∃ m, n = m + 1 := ⟨n - 1, by simp only [esize] at hn; omega⟩
    simp only [Fine, SmallRef] at hf
    simp only [jtoks, Option.some.injEq] at ht
    subst ht
    obtain ⟨hf, rfl⟩ := hf
    have e1 : strip [JTok.lbrace, .str dgoDialect.refKey, .colon, .num (Text.formatInt i), .rbrace]
        = [.lbrace, .str dgoDialect.refKey, .num (Text.formatInt i), .rbrace] := by simp [strip]
    rw [e1]
    simp only [List.cons_append, List.nil_append, jelem, if_neg (stop_ne hstop (t := .lbrace) (by decide) (by decide)), ne_eq, not_true_eq_false,
      if_false, int64_format (v := i) (by omega) (by omega)]
  | .arr es, ts, rest, n, stop, hstop, hf, ht, hn => by
    obtain ⟨n, rfl⟩ : ∃ m, n = m + 1 := ⟨n - 1, by simp only [esize] at hn; omega⟩
    simp only [esize] at hn
    simp only [Fine] at hf
    simp only [jtoks, Option.map_eq_some_iff] at ht
    obtain ⟨l, h1, rfl⟩ := ht
    have e1 : strip ([JTok.lbrack] ++ seqToks .firstInArray l ++ [.rbrack]) ++ rest = .lbrack :: (l.flatMap strip ++ .rbrack :: rest) := by
      rw [strip_append, strip_append, strip_seq]; simp [show strip [JTok.lbrack] = [JTok.lbrack] from rfl, show strip [JTok.rbrack] = [JTok.rbrack] from rfl]
    rw [e1]
    have := jloop_read es l rest n n .rbrack (.inr rfl) hf h1 (by omega) (by omega)
    simp only [jelem, if_neg (stop_ne hstop (t := .lbrack) (by decide) (by decide)), this, Out.map]
  | .map es, ts, rest, n, stop, hstop, hf, ht, hn => by
    obtain ⟨n, rfl⟩ : ∃ m, n = m + 1 := ⟨n - 1, by simp only [esize] at hn; omega⟩
    simp only [esize] at hn
    simp only [Fine] at hf
    simp only [jtoks, Option.map_eq_some_iff] at ht
    obtain ⟨l, h1, rfl⟩ := ht
    have e1 : strip ([JTok.lbrace] ++ seqToks .firstInObject l ++ [.rbrace]) ++ rest = .lbrace :: (l.flatMap strip ++ .rbrace :: rest) := by
      rw [strip_append, strip_append, strip_seq]; simp [show strip [JTok.lbrace] = [JTok.lbrace] from rfl, show strip [JTok.rbrace] = [JTok.rbrace] from rfl]
    rw [e1]
    have hloop := jloopMap_read es l rest n n hf.1 h1 (by omega) (by omega)
    have hfirst : ∃ t r, l.flatMap strip ++ .rbrace :: rest = t :: r ∧ t ≠ .str rk := by
      match es, hf, h1 with
      | [], _, h1 =>
        simp only [jtoksAll, Option.some.injEq] at h1
        subst h1
        exact ⟨.rbrace, rest, rfl, by simp⟩
      | .add (.str x) :: e :: es, hf, h1 =>
        have hx := hf.2 x _ rfl
        have hr : repair x = x := by
          have := hf.1
          simp only [FineMap] at this
          exact this.1
        simp only [jtoksAll, jtoks, jwrite, Option.map_some, hr] at h1
        cases hv : jtoks E e with
        | none => simp [hv] at h1
        | some v =>
          cases hr : jtoksAll E es with
          | none => simp [hv, hr] at h1
          | some l' =>
            simp only [hv, hr, Option.some.injEq] at h1
            subst h1
            refine ⟨.str x, strip v ++ (l'.flatMap strip ++ .rbrace :: rest), by simp [strip], ?_⟩
            intro e
            injection e with e
            exact hx e
      | [.add (.str s)], hf, _ => simp [FineMap] at hf
      | .add .nil :: _, hf, _ => simp [FineMap] at hf
      | .add (.bool _) :: _, hf, _ => simp [FineMap] at hf
      | .add (.int _) :: _, hf, _ => simp [FineMap] at hf
      | .add (.float _) :: _, hf, _ => simp [FineMap] at hf
      | .addBin _ :: _, hf, _ => simp [FineMap] at hf
      | .addTime _ :: _, hf, _ => simp [FineMap] at hf
      | .ref _ :: _, hf, _ => simp [FineMap] at hf
      | .arr _ :: _, hf, _ => simp [FineMap] at hf
      | .map _ :: _, hf, _ => simp [FineMap] at hf
    obtain ⟨t, r, e2, hne⟩ := hfirst
    rw [e2] at hloop ⊢
    simp only [jelem, if_neg (stop_ne hstop (t := .lbrace) (by decide) (by decide)), ne_eq, hne, not_false_eq_true, if_true, hloop, Out.map]
theorem jloop_read {E : JEnv} {rk : Str} : ∀ (es : List Ev) (l : List (List JTok)) (rest : List JTok) (n m : Nat) (stop : JTok),
    (stop = .rbrace ∨ stop = .rbrack) → FineAll (JAtom E) (SmallRef rk) (fun s => s ≠ rk) es → jtoksAll E es = some l →
      esizeAll es ≤ n → esizeAll es ≤ m →
      jloop (jelem E rk m (some stop)) n (l.flatMap strip ++ stop :: rest) = .ok (rest, es)
  | [], l, rest, n, m, stop, hstop, hf, ht, hn, hm => by
    simp only [jtoksAll, Option.some.injEq] at ht
    subst ht
    simp only [esizeAll] at hn hm
    obtain ⟨n, rfl⟩ : ∃ k, n = k + 1 := ⟨n - 1, by omega⟩
    obtain ⟨m, rfl⟩ : ∃ k, m = k + 1 := ⟨m - 1, by omega⟩
    exact jloop_nil
  | e :: es, l, rest, n, m, stop, hstop, hf, ht, hn, hm => by
    simp only [esizeAll] at hn hm
    simp only [FineAll] at hf
    obtain ⟨n, rfl⟩ : ∃ k, n = k + 1 := ⟨n - 1, by omega⟩
    simp only [jtoksAll] at ht
    cases hv : jtoks E e with
    | none => simp [hv] at ht
    | some v =>
      cases hr : jtoksAll E es with
      | none => simp [hv, hr] at ht
      | some l' =>
        simp only [hv, hr, Option.some.injEq] at ht
        subst ht
        rw [List.flatMap_cons, List.append_assoc]
        exact jloop_cons (jelem_read e v _ m (some stop) (by rcases hstop with rfl | rfl <;> simp) hf.1 hv (by omega))
          (jloop_read es l' rest n m stop hstop hf.2 hr (by omega) (by omega))
theorem jloopMap_read {E : JEnv} {rk : Str} : ∀ (es : List Ev) (l : List (List JTok)) (rest : List JTok) (n m : Nat),
    FineMap (JAtom E) (SmallRef rk) (fun s => s ≠ rk) es → jtoksAll E es = some l → esizeAll es ≤ n → esizeAll es ≤ m →
      jloop (jelem E rk m (some .rbrace)) n (l.flatMap strip ++ .rbrace :: rest) = .ok (rest, es)
  | [], l, rest, n, m, hf, ht, hn, hm => by
    simp only [jtoksAll, Option.some.injEq] at ht
    subst ht
    simp only [esizeAll] at hn hm
    obtain ⟨n, rfl⟩ : ∃ k, n = k + 1 := ⟨n - 1, by omega⟩
    obtain ⟨m, rfl⟩ : ∃ k, m = k + 1 := ⟨m - 1, by omega⟩
    exact jloop_nil
  | .add (.str x) :: e :: es, l, rest, n, m, hf, ht, hn, hm => by
    simp only [esizeAll, esize] at hn hm
    simp only [FineMap] at hf
    obtain ⟨n, rfl⟩ : ∃ k, n = k + 1 + 1 := ⟨n - 2, by omega⟩
    obtain ⟨m, rfl⟩ : ∃ k, m = k + 1 := ⟨m - 1, by omega⟩
    have hx : jwrite E (.str x) = some (.str x) := by
      have : repair x = x := hf.1
      simp only [jwrite, this]
    simp only [jtoksAll, jtoks, hx, Option.map_some] at ht
    cases hv : jtoks E e with
    | none => simp [hv] at ht
    | some v =>
      cases hr : jtoksAll E es with
      | none => simp [hv, hr] at ht
      | some l' =>
        simp only [hv, hr, Option.some.injEq] at ht
        subst ht
        have e1 : ([JTok.str x] :: v :: l').flatMap strip ++ .rbrace :: rest = .str x :: (strip v ++ (l'.flatMap strip ++ .rbrace :: rest)) := by
          simp [strip]
        rw [e1]
        exact jloop_cons (jelem_atom hf.1 hx (by simp) m _) (jloop_cons (jelem_read e v _ (m + 1) (some .rbrace) (by simp) hf.2.1 hv (by omega))
          (jloopMap_read es l' rest n (m + 1) hf.2.2 hr (by omega) (by omega)))
  | [.add (.str s)], _, _, _, _, hf, _, _, _ => by simp [FineMap] at hf
  | .add .nil :: _, _, _, _, _, hf, _, _, _ => by simp [FineMap] at hf
  | .add (.bool _) :: _, _, _, _, _, hf, _, _, _ => by simp [FineMap] at hf
  | .add (.int _) :: _, _, _, _, _, hf, _, _, _ => by simp [FineMap] at hf
  | .add (.float _) :: _, _, _, _, _, hf, _, _, _ => by simp [FineMap] at hf
  | .addBin _ :: _, _, _, _, _, hf, _, _, _ => by simp [FineMap] at hf
  | .addTime _ :: _, _, _, _, _, hf, _, _, _ => by simp [FineMap] at hf
  | .ref _ :: _, _, _, _, _, hf, _, _, _ => by simp [FineMap] at hf
  | .arr _ :: _, _, _, _, _, hf, _, _, _ => by simp [FineMap] at hf
  | .map _ :: _, _, _, _, _, hf, _, _, _ => by simp [FineMap] at hf
end

end Verif.Stream
