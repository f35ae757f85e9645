import Verif.Stream.BytesGrammar
import Verif.Stream.Main
/-!
# Lemmas: the data of a JSON text
-/
set_option autoImplicit false
set_option linter.unusedVariables false
set_option linter.unusedSimpArgs false
namespace Verif.Stream
open Verif.Value (Str runeLen)

/-! ## The grammar -/

theorem elems_join {a : List JTok} (ha : JElems a) : ∀ {b : List JTok}, JElems b → JElems (a ++ [.comma] ++ b)
  | _, .one v h => .more a v ha h
  | _, .more ts v h hv => by
    have := JElems.more _ v (elems_join ha h) hv
    simpa using this

theorem members_join {a : List JTok} (ha : JMembers a) : ∀ {b : List JTok}, JMembers b → JMembers (a ++ [.comma] ++ b)
  | _, .one k v h => by simpa using JMembers.more a k v ha h
  | _, .more ts k v h hv => by
    have := JMembers.more _ k v (members_join ha h) hv
    simpa using this

mutual
theorem says_val {E : JEnv} {d : Dialect} : ∀ {ts : List JTok} {t : T}, Says E d ts t → JVal ts
  | _, _, .null => .scalar _ rfl
  | _, _, .bool b => .scalar _ rfl
  | _, _, .str s => .scalar _ rfl
  | _, _, .num x t _ _ => .scalar _ rfl
  | _, _, .arr0 => .arr0
  | _, _, .arr ts l h => .arr ts (says_elems h)
  | _, _, .obj0 => .obj0
  | _, _, .obj ts l h _ _ => .obj ts (says_members h)
theorem says_elems {E : JEnv} {d : Dialect} : ∀ {ts : List JTok} {l : List T}, SaysAll E d ts l → JElems ts
  | _, _, .one v t h => .one v (says_val h)
  | _, _, .more v t ts l h h' => elems_join (.one v (says_val h)) (says_elems h')
theorem says_members {E : JEnv} {d : Dialect} : ∀ {ts : List JTok} {l : List (Str × T)}, SaysMembers E d ts l → JMembers ts
  | _, _, .one k v t h => .one k v (says_val h)
  | _, _, .more k v t ts l h h' => members_join (.one k v (says_val h)) (says_members h')
end

/-! ## Numbers -/

theorem parse_digits : ∀ (ds : Str) (n : Nat), (∀ b ∈ ds, IsDigit b) →
    Text.parseDigits 10 n ds = some (ds.foldl (fun n d => n * 10 + (d.toNat - 48)) n)
  | [], n, _ => rfl
  | b :: ds, n, h => by
    have hb := h b List.mem_cons_self
    unfold IsDigit at hb
    have hv : Text.digitVal b = some (b.toNat - 48) := by
      unfold Text.digitVal
      dsimp only
      rw [if_pos hb]
    rw [Text.parseDigits, hv]
    dsimp only
    rw [if_pos (by omega), parse_digits ds _ fun x hx => h x (List.mem_cons_of_mem _ hx)]
    rfl

/-- A text with other characters is not an integer. -/
theorem parse_other : ∀ (ds : Str) (n : Nat), (∃ b ∈ ds, ¬IsDigit b) → Text.parseDigits 10 n ds = none
  | [], n, h => by obtain ⟨b, hb, _⟩ := h; cases hb
  | b :: ds, n, h => by
    rw [Text.parseDigits]
    split
    · rename_i v hv
      split
      · rename_i hlt
        refine parse_other ds _ ?_
        obtain ⟨c, hc, hn⟩ := h
        rcases List.mem_cons.mp hc with rfl | hc
        · exfalso
          apply hn
          unfold Text.digitVal at hv
          dsimp only at hv
          unfold IsDigit
          split at hv
          · assumption
          · split at hv
            · cases hv; omega
            · split at hv
              · cases hv; omega
              · cases hv
        · exact ⟨c, hc, hn⟩
      · rfl
    · rfl

/-- Its sign and the rest of a number -/
theorem num_shape {x : Str} (h : NumText x) : ∃ b r, IsDigit b ∧ (x = b :: r ∨ x = 45 :: b :: r) := by
  obtain ⟨m, i, f, e, rfl, hm, hi, _⟩ := h
  obtain ⟨b, r, rfl, hb⟩ := intText_head hi
  rcases hm with rfl | rfl
  · exact ⟨b, _, hb, .inl rfl⟩
  · exact ⟨b, _, hb, .inr rfl⟩

theorem int64_pos {b : UInt8} {r : Str} (hb : IsDigit b) :
    int64 (b :: r) = (Text.parseDigits 10 0 (b :: r)).bind fun n => if n < 2 ^ 63 then some (n : Int) else none := by
  unfold int64
  split
  · rename_i h; cases h
  · rename_i h; cases h; exact absurd hb (by unfold IsDigit; decide)
  · rename_i h; cases h; exact absurd hb (by unfold IsDigit; decide)
  · rfl

theorem int64_neg {b : UInt8} {r : Str} :
    int64 (45 :: b :: r) = (Text.parseDigits 10 0 (b :: r)).bind fun n => if n ≤ 2 ^ 63 then some (-(n : Int)) else none := rfl

/-- The atom of a number -/
theorem number_read {E : JEnv} {x : Str} {t : T} (hx : NumText x) (h : Number E x t) :
    (∃ i, int64 x = some i ∧ t = .int (BitVec.ofInt 64 i)) ∨ (int64 x = none ∧ t = .float (E.parseFloat x)) := by
  rcases h with ⟨i, ⟨ds, hds, hx'⟩, h1, h2, rfl⟩ | ⟨hno, rfl⟩
  · refine .inl ⟨i, ?_, rfl⟩
    have hp := parse_digits ds 0 hds.2
    cases ds with
    | nil => exact absurd rfl hds.1
    | cons b r =>
      have hb := hds.2 b List.mem_cons_self
      rcases hx' with ⟨rfl, rfl⟩ | ⟨rfl, rfl⟩
      · rw [int64_pos hb, hp]
        show (if _ then _ else _) = _
        unfold decimal at h2
        rw [if_pos (by omega)]; rfl
      · show int64 (45 :: b :: r) = _
        rw [int64_neg, hp]
        show (if _ then _ else _) = _
        unfold decimal at h1
        rw [if_pos (by omega)]; rfl
  · refine .inr ⟨?_, rfl⟩
    obtain ⟨b, r, hb, hx'⟩ := num_shape hx
    by_cases hall : ∀ c ∈ b :: r, IsDigit c
    · have hp := parse_digits (b :: r) 0 hall
      have hds : Digits1 (b :: r) := ⟨by simp, hall⟩
      rcases hx' with rfl | rfl
      · have := hno _ ⟨_, hds, .inl ⟨rfl, rfl⟩⟩
        unfold decimal at this
        rw [int64_pos hb, hp]
        show (if _ then _ else _) = _
        rw [if_neg (by omega)]
      · have := hno _ ⟨_, hds, .inr ⟨rfl, rfl⟩⟩
        unfold decimal at this
        rw [int64_neg, hp]
        show (if _ then _ else _) = _
        rw [if_neg (by omega)]
    · have : ∃ c ∈ b :: r, ¬IsDigit c := by
        apply Classical.byContradiction
        intro hn
        exact hall fun c hc => Classical.byContradiction fun h => hn ⟨c, hc, h⟩
      have hp := parse_other (b :: r) 0 this
      rcases hx' with rfl | rfl
      · rw [int64_pos hb, hp]; rfl
      · rw [int64_neg, hp]; rfl

/-! ## Reading -/

/-- The calls of the consumer give this value. -/
def Gives (d : Dialect) (e : Ev) (t : T) : Prop :=
  ∀ (D : Decoder), D.dialect = d → ∀ c : Coll, ∃ c' r, (∀ fuel, collect (some D) fuel c e = .ok (c', r)) ∧ Le c c' ∧ Is c'.heap r t

def GivesAll (d : Dialect) (es : List Ev) (l : List T) : Prop :=
  ∀ (D : Decoder), D.dialect = d → ∀ c : Coll, ∃ c' rs, (∀ fuel, collectAll (some D) fuel c es = .ok (c', rs)) ∧ Le c c' ∧ IsAll c'.heap rs l

def GivesMembers (d : Dialect) (es : List Ev) (l : List (Str × T)) : Prop :=
  ∀ (D : Decoder), D.dialect = d → ∀ c : Coll, ∃ c' ps, (∀ fuel, collectAll (some D) fuel c es = .ok (c', flatten ps)) ∧ Le c c' ∧
    IsAll c'.heap (flatten ps) (flatten (l.map fun e => (T.str e.1, e.2))) ∧ ps.map (·.1) = l.map fun e => Ref.atom (.str e.1)

/-- `decodeElem` calls the consumer with `e`. -/
def Decodes (E : JEnv) (rk : Str) (F : Nat) (ts : List JTok) (e : Ev) : Prop :=
  ∀ f, F ≤ f → ∀ (stop : Option JTok) (rest : List JTok), stop = none ∨ stop = some .rbrack ∨ stop = some .rbrace →
    jelem E rk f stop (strip ts ++ rest) = .ok (rest, some e)

theorem gives_atom (d : Dialect) (a : Atom) : Gives d (.add a) (.ofAtom a) :=
  fun D _ c => ⟨c.push (.atom a), .atom a, fun fuel => by rw [collect], Le.push _ _, Is.atom _ a⟩

theorem toPairs_flatten : ∀ ps : List (Ref × Ref), toPairs (flatten ps) = ps
  | [] => rfl
  | (a, b) :: ps => by
    show toPairs (a :: b :: flatten ps) = _
    rw [toPairs, toPairs_flatten ps]

theorem getStr_absent {k : Str} : ∀ {ps : List (Ref × Ref)} {ks : List Str}, ps.map (·.1) = ks.map (fun s => Ref.atom (.str s)) → (∀ s ∈ ks, s ≠ k) →
    getStr k ps = none
  | [], _, _, _ => rfl
  | (a, b) :: ps, [], h, _ => by simp at h
  | (a, b) :: ps, s :: ks, h, hk => by
    simp only [List.map_cons, List.cons.injEq] at h
    rw [getStr, h.1, if_neg, getStr_absent h.2 fun s hs => hk s (List.mem_cons_of_mem _ hs)]
    intro e
    cases e
    exact hk k List.mem_cons_self rfl

theorem gives_arr {d : Dialect} {es : List Ev} {l : List T} (h : GivesAll d es l) : Gives d (.arr es) (.arr l) := by
  intro D hD c
  obtain ⟨c2, rs, h1, h2, h3⟩ := h D hD c.start
  obtain ⟨hle, hsub, hget⟩ := fill_le (.arr rs) h2
  exact ⟨_, _, fun fuel => collect_arr (h1 fuel), hle, Is.arr hget (h3.mono hsub)⟩

theorem gives_map {d : Dialect} {es : List Ev} {l : List (Str × T)} (h : GivesMembers d es l) (hk : ∀ e ∈ l, e.1 ≠ d.typeKey) :
    Gives d (.map es) (.map (l.map fun e => (.str e.1, e.2))) := by
  intro D hD c
  obtain ⟨c2, ps, h1, h2, h3, h4⟩ := h D hD c.start
  obtain ⟨hle, hsub, hget⟩ := fill_le (.map (toPairs (flatten ps))) h2
  refine ⟨_, .obj c.cells.length, fun fuel => ?_, hle, Is.map hget (h3.mono hsub)⟩
  rw [collect_map (h1 fuel)]
  have : getStr D.dialect.typeKey (toPairs (flatten ps)) = none := by
    rw [toPairs_flatten]
    refine getStr_absent (ks := l.map (·.1)) (by rw [h4, List.map_map]; rfl) ?_
    intro s hs
    obtain ⟨e, he, rfl⟩ := List.mem_map.mp hs
    rw [hD]
    exact hk e he
  simp only [this]

theorem decodes_scalar {E : JEnv} {rk : Str} {t : JTok} {e : Ev} (ht : t.scalar = true)
    (h : ∀ f stop rest, some t ≠ stop → jelem E rk (f + 1) stop (t :: rest) = .ok (rest, some e)) : Decodes E rk 1 [t] e := by
  intro f hf stop rest hs
  have e1 : strip [t] = [t] := by cases t <;> simp [JTok.scalar] at ht <;> rfl
  rw [e1]
  match f, hf with
  | f + 1, _ =>
    refine h f stop rest ?_
    rcases hs with rfl | rfl | rfl <;> cases t <;> simp [JTok.scalar] at ht ⊢

theorem jloop_end {E : JEnv} {rk : Str} {f k : Nat} {t : JTok} {rest : List JTok} (hf : 1 ≤ f) (hk : 1 ≤ k) :
    jloop (jelem E rk f (some t)) k (t :: rest) = .ok (rest, []) := by
  match f, k, hf, hk with
  | f + 1, k + 1, _, _ =>
    rw [jloop, jelem.eq_def]
    simp

theorem jloop_step {elem : List JTok → Out (List JTok × Option Ev)} {k : Nat} {T T1 T' : List JTok} {e : Ev} {es : List Ev}
    (h : elem T = .ok (T1, some e)) (h' : jloop elem k T1 = .ok (T', es)) : jloop elem (k + 1) T = .ok (T', e :: es) := by
  rw [jloop, h]
  dsimp only
  rw [h']

/-- What the loop over the elements or members calls -/
def Loops (E : JEnv) (rk : Str) (F : Nat) (close : JTok) (ts : List JTok) (es : List Ev) : Prop :=
  ∀ f k, F ≤ f → F ≤ k → ∀ rest, jloop (jelem E rk f (some close)) k (strip ts ++ close :: rest) = .ok (rest, es)

theorem decodes_arr {E : JEnv} {rk : Str} {F : Nat} {ts : List JTok} {es : List Ev} (h : Loops E rk F .rbrack ts es) :
    Decodes E rk (F + 1) ([.lbrack] ++ ts ++ [.rbrack]) (.arr es) := by
  intro f hf stop rest hs
  match f, hf with
  | f + 1, hf =>
    rw [strip_append, strip_append]
    show jelem E rk (f + 1) stop (.lbrack :: (strip ts ++ [.rbrack]) ++ rest) = _
    rw [List.cons_append, jelem.eq_def]
    dsimp only
    rw [if_neg (by rcases hs with rfl | rfl | rfl <;> simp), List.append_assoc]
    show (jloop (jelem E rk f (some .rbrack)) f (strip ts ++ .rbrack :: rest)).map _ = _
    rw [h f f (by omega) (by omega) rest]
    rfl

theorem decodes_map {E : JEnv} {rk : Str} {F : Nat} {ts : List JTok} {es : List Ev} (h : Loops E rk F .rbrace ts es)
    (hk : ∀ r, ts ≠ .str rk :: r) (hc : ∀ r, ts ≠ .comma :: r ∧ ts ≠ .colon :: r) :
    Decodes E rk (F + 1) ([.lbrace] ++ ts ++ [.rbrace]) (.map es) := by
  intro f hf stop rest hs
  match f, hf with
  | f + 1, hf =>
    rw [strip_append, strip_append]
    show jelem E rk (f + 1) stop (.lbrace :: (strip ts ++ [.rbrace]) ++ rest) = _
    rw [List.cons_append, jelem.eq_def]
    dsimp only
    rw [if_neg (by rcases hs with rfl | rfl | rfl <;> simp), List.append_assoc]
    have hl := h f f (by omega) (by omega) rest
    show (match strip ts ++ .rbrace :: rest with
      | [] => _
      | k :: ts' => _) = _
    have hh : ∃ k T, strip ts ++ .rbrace :: rest = k :: T ∧ k ≠ .str rk := by
      cases ts with
      | nil => exact ⟨.rbrace, rest, rfl, by simp⟩
      | cons a r =>
        refine ⟨a, strip r ++ .rbrace :: rest, ?_, fun e => hk r (by rw [e])⟩
        rw [strip_cons, if_neg, List.cons_append]
        rintro (e | e)
        · exact (hc r).1 (by rw [e])
        · exact (hc r).2 (by rw [e])
    obtain ⟨k, T, e, hkn⟩ := hh
    have e' : strip ts ++ ([JTok.rbrace] ++ rest) = k :: T := e
    rw [e] at hl
    simp only [e', e, if_pos hkn, hl]
    rfl

mutual
theorem says_read {E : JEnv} {d : Dialect} : ∀ {ts : List JTok} {t : T}, Says E d ts t → ∃ e F, Decodes E d.refKey F ts e ∧ Gives d e t
  | _, _, .null => ⟨.add .nil, 1, decodes_scalar rfl fun f stop rest h => by rw [jelem.eq_def]; dsimp only; rw [if_neg h], gives_atom d .nil⟩
  | _, _, .bool b => ⟨.add (.bool b), 1, decodes_scalar rfl fun f stop rest h => by rw [jelem.eq_def]; dsimp only; rw [if_neg h], gives_atom d (.bool b)⟩
  | _, _, .str s => ⟨.add (.str s), 1, decodes_scalar rfl fun f stop rest h => by rw [jelem.eq_def]; dsimp only; rw [if_neg h], gives_atom d (.str s)⟩
  | _, _, .num x t hx h => by
    rcases number_read hx h with ⟨i, hi, rfl⟩ | ⟨hi, rfl⟩
    · exact ⟨_, 1, decodes_scalar rfl fun f stop rest h => by rw [jelem.eq_def]; dsimp only; rw [if_neg h, hi], gives_atom d (.int (BitVec.ofInt 64 i))⟩
    · exact ⟨_, 1, decodes_scalar rfl fun f stop rest h => by rw [jelem.eq_def]; dsimp only; rw [if_neg h, hi], gives_atom d (.float (E.parseFloat x))⟩
  | _, _, .arr0 =>
    ⟨.arr [], 2, decodes_arr (ts := []) fun f k hf hk rest => jloop_end hf hk,
      gives_arr fun D _ c => ⟨c, [], fun fuel => by rw [collectAll], Le.refl c, IsAll.nil _⟩⟩
  | _, _, .arr ts l h => by
    obtain ⟨es, F, h1, h2⟩ := all_read h
    exact ⟨.arr es, F + 1, decodes_arr h1, gives_arr h2⟩
  | _, _, .obj0 =>
    ⟨.map [], 2, decodes_map (ts := []) (fun f k hf hk rest => jloop_end hf hk) (fun _ => by simp) (fun _ => by simp),
      gives_map (l := []) (fun D _ c => ⟨c, [], fun fuel => by rw [collectAll]; rfl, Le.refl c, IsAll.nil _, rfl⟩) (fun _ h => by cases h)⟩
  | _, _, .obj ts l h hn hd => by
    obtain ⟨es, F, h1, h2⟩ := members_read h
    have hhead : ∃ e r, e ∈ l ∧ ts = .str e.1 :: r := by
      cases h with
      | one k v t h => exact ⟨(k, t), _, List.mem_cons_self, rfl⟩
      | more k v t ts l h h' => exact ⟨(k, t), _, List.mem_cons_self, rfl⟩
    obtain ⟨e, r, he, hts⟩ := hhead
    refine ⟨.map es, F + 1, decodes_map h1 ?_ ?_, gives_map h2 fun e he => (hd e he).1⟩
    · intro r' h
      rw [hts] at h
      injection h with h _
      injection h with h
      exact (hd e he).2 h
    · intro r'
      rw [hts]
      exact ⟨by simp, by simp⟩
theorem all_read {E : JEnv} {d : Dialect} : ∀ {ts : List JTok} {l : List T}, SaysAll E d ts l →
    ∃ es F, Loops E d.refKey F .rbrack ts es ∧ GivesAll d es l
  | _, _, .one v t h => by
    obtain ⟨e, F, h1, h2⟩ := says_read h
    refine ⟨[e], F + 2, ?_, ?_⟩
    · intro f k hf hk rest
      match k, hk with
      | k + 1, hk => exact jloop_step (h1 f (by omega) _ _ (.inr (.inl rfl))) (jloop_end (by omega) (by omega))
    · intro D hD c
      obtain ⟨c', r, g1, g2, g3⟩ := h2 D hD c
      exact ⟨c', [r], fun fuel => by simp only [collectAll, g1 fuel], g2, .cons g3 (.nil _)⟩
  | _, _, .more v t ts l h h' => by
    obtain ⟨e, F, h1, h2⟩ := says_read h
    obtain ⟨es, F', h3, h4⟩ := all_read h'
    refine ⟨e :: es, F + F' + 1, ?_, ?_⟩
    · intro f k hf hk rest
      match k, hk with
      | k + 1, hk =>
        refine jloop_step (T1 := strip ts ++ .rbrack :: rest) ?_ (h3 f k (by omega) (by omega) rest)
        have := h1 f (by omega) (some .rbrack) (strip ts ++ .rbrack :: rest) (.inr (.inl rfl))
        rw [strip_append, strip_append]
        simpa [strip] using this
    · intro D hD c
      obtain ⟨c1, r, g1, g2, g3⟩ := h2 D hD c
      obtain ⟨c2, rs, g4, g5, g6⟩ := h4 D hD c1
      exact ⟨c2, r :: rs, fun fuel => by simp only [collectAll, g1 fuel, g4 fuel], g2.trans g5, .cons (g3.mono g5.heap) g6⟩
theorem members_read {E : JEnv} {d : Dialect} : ∀ {ts : List JTok} {l : List (Str × T)}, SaysMembers E d ts l →
    ∃ es F, Loops E d.refKey F .rbrace ts es ∧ GivesMembers d es l
  | _, _, .one key v t h => by
    obtain ⟨e, F, h1, h2⟩ := says_read h
    refine ⟨[.add (.str key), e], F + 3, ?_, ?_⟩
    · intro f k hf hk rest
      match f, k, hf, hk with
      | f + 1, k + 2, hf, hk =>
        refine jloop_step (T1 := strip v ++ .rbrace :: rest) ?_ (jloop_step (h1 (f + 1) (by omega) _ _ (.inr (.inr rfl))) (jloop_end (by omega) (by omega)))
        rw [strip_append]
        show jelem E d.refKey (f + 1) _ (.str key :: (strip v ++ _)) = _
        rw [jelem.eq_def]
        simp
    · intro D hD c
      obtain ⟨c', r, g1, g2, g3⟩ := h2 D hD (c.push (.atom (.str key)))
      refine ⟨c', [(.atom (.str key), r)], fun fuel => ?_, (Le.push _ _).trans g2, .cons (Is.atom _ (.str key)) (.cons g3 (.nil _)), rfl⟩
      simp only [collectAll, collect, g1 fuel]
      rfl
  | _, _, .more key v t ts l h h' => by
    obtain ⟨e, F, h1, h2⟩ := says_read h
    obtain ⟨es, F', h3, h4⟩ := members_read h'
    refine ⟨.add (.str key) :: e :: es, F + F' + 2, ?_, ?_⟩
    · intro f k hf hk rest
      match f, k, hf, hk with
      | f + 1, k + 2, hf, hk =>
        refine jloop_step (T1 := strip v ++ (strip ts ++ .rbrace :: rest)) ?_
          (jloop_step (T1 := strip ts ++ .rbrace :: rest) (h1 (f + 1) (by omega) _ _ (.inr (.inr rfl))) (h3 (f + 1) k (by omega) (by omega) rest))
        rw [strip_append, strip_append, strip_append]
        have e1 : strip [JTok.str key, .colon] ++ strip v ++ strip [JTok.comma] ++ strip ts ++ .rbrace :: rest = .str key :: (strip v ++ (strip ts ++ .rbrace :: rest)) := by
          simp [strip]
        rw [e1, jelem.eq_def]
        simp
    · intro D hD c
      obtain ⟨c1, r, g1, g2, g3⟩ := h2 D hD (c.push (.atom (.str key)))
      obtain ⟨c2, ps, g4, g5, g6, g7⟩ := h4 D hD c1
      refine ⟨c2, (.atom (.str key), r) :: ps, fun fuel => ?_, ((Le.push _ _).trans g2).trans g5,
        .cons (Is.atom _ (.str key)) (.cons (g3.mono g5.heap) g6), by simp [g7]⟩
      simp only [collectAll, collect, g1 fuel, g4 fuel]
      rfl
end

end Verif.Stream
