import Verif.Pcore.Data
import Verif.Value.Props
/-!
# Lists with entries, and texts that are one entry
-/
set_option autoImplicit false
set_option linter.unusedVariables false
set_option linter.unusedSimpArgs false
set_option linter.unnecessarySeqFocus false
namespace Verif.Pcore
open Verif.Value (Str Val F64 eq WF)
open Verif.Text

/-! ## Specification -/

/-- An element of a list: a value or an entry -/
inductive Cell where
  | one (v : Val)
  | entry (k v : Val)

/-- `v` or `k => v` -/
def Cell.pieces : Cell → List Pc
  | .one v => valPieces v
  | .entry k v => valPieces k ++ .rocket :: valPieces v

/-- Neither an array nor a hash -/
def Plain : Val → Prop
  | .arr _ | .map _ => False
  | _ => True

/-- The values have a literal; the keys are scalars, and not NaN -/
def Cell.Ok (E : Env) : Cell → Prop
  | .one v => Literal E v
  | .entry k v => Literal E k ∧ Plain k ∧ WF k ∧ Literal E v

/-- The keys, each where it occurs for the first time -/
def firsts : List Val → List Val
  | [] => []
  | k :: ks => k :: (firsts ks).filter fun k' => !eq k' k

/-- The value is that of the last entry with this key. -/
def LastOf (es : List (Val × Val)) (k v : Val) : Prop :=
  ∃ pre k' suf, es = pre ++ (k', v) :: suf ∧ eq k' k = true ∧ ∀ e ∈ suf, eq e.1 k = false

/-- The map of the entries: the keys in the order in which they occur first, each with the value of its last entry -/
def MapOf (es m : List (Val × Val)) : Prop := m.map (·.1) = firsts (es.map (·.1)) ∧ ∀ e ∈ m, LastOf es e.1 e.2

/-- Does the list start with an entry? -/
def startsWithEntry : List Cell → Prop
  | .entry _ _ :: _ => True
  | _ => False

/-- Every longest run of entries is replaced by the map of these entries. -/
inductive Grouped : List Cell → List Val → Prop where
  | nil : Grouped [] []
  | one {cs : List Cell} {vs : List Val} (v : Val) : Grouped cs vs → Grouped (.one v :: cs) (v :: vs)
  | run {cs : List Cell} {vs : List Val} (es m : List (Val × Val)) : es ≠ [] → ¬ startsWithEntry cs → MapOf es m → Grouped cs vs →
      Grouped (es.map (fun e => .entry e.1 e.2) ++ cs) (.map m :: vs)

/-! ## Maps -/

/-- `putEntry` on values -/
def putV (k v : Val) : List (Val × Val) → List (Val × Val)
  | [] => [(k, v)]
  | (k', v') :: es => if eq k k' then (k', v) :: es else (k', v') :: putV k v es

/-- What was read for entries with scalar keys -/
def EntriesOf (es : List (Val × Val)) (xs : List (PV × PV)) : Prop :=
  List.Forall₂ (fun e x => x.1 = .val e.1 ∧ x.2.toVal = some e.2) es xs

theorem EntriesOf.toVal {es : List (Val × Val)} {xs : List (PV × PV)} (h : EntriesOf es xs) : toEntries xs = some es := by
  induction h with
  | nil => rfl
  | @cons a x as bs h r ih =>
    obtain ⟨k, v⟩ := x
    obtain ⟨h1, h2⟩ := h
    simp only at h1 h2
    subst h1
    rw [toEntries, h2, ih, PV.toVal]

theorem putEntry_ok {k v : Val} {y : PV} (hy : y.toVal = some v) {es : List (Val × Val)} {xs : List (PV × PV)} (h : EntriesOf es xs) :
    ∃ xs', putEntry (.val k) y xs = .ok xs' ∧ EntriesOf (putV k v es) xs' := by
  induction h with
  | nil => exact ⟨_, rfl, .cons ⟨rfl, hy⟩ .nil⟩
  | @cons a x as bs h r ih =>
    obtain ⟨k', v'⟩ := x
    obtain ⟨h1, h2⟩ := h
    simp only at h1 h2
    subst h1
    rw [putEntry, putV]
    simp only [sameKey]
    cases eq k a.1 with
    | true => exact ⟨_, rfl, .cons ⟨rfl, hy⟩ r⟩
    | false =>
      obtain ⟨xs', e, h'⟩ := ih
      exact ⟨(.val a.1, v') :: xs', by rw [e]; rfl, .cons ⟨rfl, h2⟩ h'⟩

theorem firsts_sub {ks : List Val} {k : Val} (h : k ∈ firsts ks) : k ∈ ks := by
  induction ks with
  | nil => exact h
  | cons a ks ih =>
    rcases List.mem_cons.1 h with rfl | h'
    · exact List.mem_cons_self
    · exact List.mem_cons_of_mem _ (ih (List.mem_filter.1 h').1)

theorem eq_trans {a b c : Val} (ha : WF a) (hb : WF b) (hc : WF c) : eq a b = true → eq b c = true → eq a c = true :=
  Value.C08_equals_is_equivalence.2.2 a b c ha hb hc

theorem eq_symm {a b : Val} (ha : WF a) (hb : WF b) : eq a b = true → eq b a = true := by
  rw [Value.C08_equals_is_equivalence.2.1 a b ha hb]
  exact id

theorem firsts_snoc {ks : List Val} (h : ∀ k ∈ ks, WF k) {x : Val} (hx : WF x) :
    firsts (ks ++ [x]) = firsts ks ++ if (firsts ks).any (eq x ·) then [] else [x] := by
  induction ks with
  | nil => rfl
  | cons k ks ih =>
    have hk := h k List.mem_cons_self
    have hs : ∀ k ∈ ks, WF k := fun k hk => h k (List.mem_cons_of_mem _ hk)
    rw [List.cons_append, firsts, ih hs, firsts, List.filter_append, List.cons_append]
    congr 2
    rw [List.any_cons]
    by_cases he : eq x k = true
    · rw [he]
      cases (firsts ks).any (eq x ·) <;> simp [he]
    · have hany : ((firsts ks).filter fun k' => !eq k' k).any (eq x ·) = (firsts ks).any (eq x ·) := by
        rw [Bool.eq_iff_iff, List.any_eq_true, List.any_eq_true]
        constructor
        · rintro ⟨y, hy, h2⟩; exact ⟨y, (List.mem_filter.1 hy).1, h2⟩
        · rintro ⟨y, hy, h2⟩
          refine ⟨y, List.mem_filter.2 ⟨hy, ?_⟩, h2⟩
          cases hyk : eq y k with
          | false => rfl
          | true => exact absurd (eq_trans hx (hs y (firsts_sub hy)) hk h2 hyk) he
      rw [hany]
      rw [Bool.not_eq_true] at he
      rw [he, Bool.false_or]
      cases (firsts ks).any (eq x ·) <;> simp [he]

theorem firsts_pairwise (ks : List Val) : (firsts ks).Pairwise fun a b => eq b a = false := by
  induction ks with
  | nil => exact .nil
  | cons k ks ih =>
    refine .cons ?_ (ih.filter _)
    intro b hb
    simpa using (List.mem_filter.1 hb).2

theorem putV_keys (k v : Val) (m : List (Val × Val)) :
    (putV k v m).map (·.1) = m.map (·.1) ++ if (m.map (·.1)).any (eq k ·) then [] else [k] := by
  induction m with
  | nil => rfl
  | cons e m ih =>
    rw [putV]
    cases h : eq k e.1 with
    | true => simp [h]
    | false =>
      simp only [Bool.false_eq_true, if_false, List.map_cons, List.any_cons, h, Bool.false_or, List.cons_append]
      rw [ih]

theorem mapOf_put {es m : List (Val × Val)} {k v : Val} (h : MapOf es m) (hw : ∀ e ∈ es, WF e.1) (hk : WF k) : MapOf (es ++ [(k, v)]) (putV k v m) := by
  have hks : ∀ x ∈ es.map (·.1), WF x := by
    intro x hx
    obtain ⟨e, he, rfl⟩ := List.mem_map.1 hx
    exact hw e he
  refine ⟨?_, ?_⟩
  · rw [putV_keys, List.map_append, h.1]
    exact (firsts_snoc hks hk).symm
  have hm : ∀ e ∈ m, WF e.1 := fun e he => hks _ (firsts_sub (by rw [← h.1]; exact List.mem_map.2 ⟨e, he, rfl⟩))
  have hp : (m.map (·.1)).Pairwise fun a b => eq b a = false := by rw [h.1]; exact firsts_pairwise _
  have hl := h.2
  -- An entry stays the last one of its key
  have keep : ∀ e ∈ m, eq k e.1 = false → LastOf (es ++ [(k, v)]) e.1 e.2 := by
    intro e he hne
    obtain ⟨pre, k', suf, h1, h2, h3⟩ := hl e he
    refine ⟨pre, k', suf ++ [(k, v)], by rw [h1]; simp, h2, ?_⟩
    intro x hx
    rcases List.mem_append.1 hx with hx' | hx'
    · exact h3 x hx'
    · rw [List.mem_singleton.1 hx']; exact hne
  have new : ∀ x, eq k x = true → LastOf (es ++ [(k, v)]) x v := fun x hx => ⟨es, k, [], rfl, hx, by simp⟩
  have kk : eq k k = true := Value.C08_equals_is_equivalence.1 k hk
  clear h hks hl
  induction m with
  | nil => intro e he; rw [List.mem_singleton.1 he]; exact new k kk
  | cons a m ih =>
    rw [List.map_cons, List.pairwise_cons] at hp
    rw [putV]
    cases hka : eq k a.1 with
    | true =>
      intro e he
      simp only [if_true] at he
      rcases List.mem_cons.1 he with rfl | he'
      · exact new _ hka
      · refine keep e (List.mem_cons_of_mem _ he') ?_
        cases hke : eq k e.1 with
        | false => rfl
        | true =>
          have hwa := hm a List.mem_cons_self
          have hwe := hm e (List.mem_cons_of_mem _ he')
          have := eq_trans hwe hk hwa (eq_symm hk hwe hke) hka
          rw [hp.1 e.1 (List.mem_map.2 ⟨e, he', rfl⟩)] at this
          cases this
    | false =>
      intro e he
      simp only [Bool.false_eq_true, if_false] at he
      rcases List.mem_cons.1 he with rfl | he'
      · exact keep _ List.mem_cons_self hka
      · exact ih (fun e he => hm e (List.mem_cons_of_mem _ he)) hp.2 (fun e he => keep e (List.mem_cons_of_mem _ he)) e he'

/-! ## Grouping -/

/-- What was read for an element -/
def CellOf : Cell → Elem → Prop
  | .one v, .one x => x.toVal = some v
  | .entry k v, .entry a b => a = .val k ∧ b.toVal = some v
  | _, _ => False

theorem convert_grouped {E : Env} : ∀ {cs : List Cell} {xs : List Elem}, List.Forall₂ CellOf cs xs → (∀ c ∈ cs, c.Ok E) →
    (∃ vs ys, convert none xs = .ok ys ∧ toVals ys = some vs ∧ Grouped cs vs) ∧
    ∀ es m ms, es ≠ [] → (∀ e ∈ es, WF e.1) → MapOf es m → EntriesOf m ms →
      ∃ vs ys, convert (some ms) xs = .ok ys ∧ toVals ys = some vs ∧ Grouped (es.map (fun e => .entry e.1 e.2) ++ cs) vs
  | [], _, .nil, _ => by
    refine ⟨⟨[], [], rfl, rfl, .nil⟩, fun es m ms hne _ hm ho => ⟨[.map m], [.map ms], rfl, ?_, .run es m hne (by simp [startsWithEntry]) hm .nil⟩⟩
    rw [toVals, PV.toVal, ho.toVal]
    rfl
  | .one v :: cs, .one x :: xs, .cons hx r, h => by
    obtain ⟨⟨vs, ys, e, ht, hg⟩, _⟩ := convert_grouped (E := E) r fun c hc => h c (List.mem_cons_of_mem _ hc)
    have hx : x.toVal = some v := hx
    refine ⟨⟨v :: vs, x :: ys, by rw [convert, e]; rfl, by rw [toVals, hx, ht], .one v hg⟩, fun es m ms hne _ hm ho => ?_⟩
    refine ⟨.map m :: v :: vs, .map ms :: x :: ys, by rw [convert, e]; rfl, ?_, .run es m hne (by simp [startsWithEntry]) hm (.one v hg)⟩
    rw [toVals, PV.toVal, ho.toVal, toVals, hx, ht]
    rfl
  | .entry k v :: cs, .entry a b :: xs, .cons hx r, h => by
    obtain ⟨_, ih⟩ := convert_grouped (E := E) r fun c hc => h c (List.mem_cons_of_mem _ hc)
    obtain ⟨rfl, hb⟩ : a = .val k ∧ b.toVal = some v := hx
    have hk : WF k := (h _ List.mem_cons_self).2.2.1
    have hkk : eq k k = true := Value.C08_equals_is_equivalence.1 k hk
    refine ⟨?_, fun es m ms hne hw hm ho => ?_⟩
    · obtain ⟨vs, ys, e, ht, hg⟩ := ih [(k, v)] [(k, v)] [(.val k, b)] (by simp) (by simpa using hk)
        ⟨rfl, fun e he => by rw [List.mem_singleton.1 he]; exact ⟨[], k, [], rfl, hkk, by simp⟩⟩ (.cons ⟨rfl, hb⟩ .nil)
      exact ⟨vs, ys, by rw [convert, e], ht, hg⟩
    · obtain ⟨ms', e1, ho'⟩ := putEntry_ok (k := k) hb ho
      obtain ⟨vs, ys, e, ht, hg⟩ := ih (es ++ [(k, v)]) (putV k v m) ms' (by simp) (by
        intro x hx
        rcases List.mem_append.1 hx with hx' | hx'
        · exact hw x hx'
        · rw [List.mem_singleton.1 hx']; exact hk) (mapOf_put hm hw hk) ho'
      refine ⟨vs, ys, by rw [convert, e1]; exact e, ht, ?_⟩
      simpa using hg
  | .one _ :: _, .entry _ _ :: _, .cons hx _, _ => hx.elim
  | .entry _ _ :: _, .one _ :: _, .cons hx _, _ => hx.elim

/-! ## Reading -/

variable {E : Env} {S : SEnv}

theorem plain_toVal {k : Val} (h : Plain k) {x : PV} (hx : x.toVal = some k) : x = .val k := by
  cases x with
  | val v => rw [PV.toVal] at hx; cases hx; rfl
  | ty t => cases hx
  | arr xs =>
    rw [PV.toVal] at hx
    cases e : toVals xs with
    | none => rw [e] at hx; cases hx
    | some l => rw [e] at hx; cases hx; exact h.elim
  | map xs =>
    rw [PV.toVal] at hx
    cases e : toEntries xs with
    | none => rw [e] at hx; cases hx
    | some l => rw [e] at hx; cases hx; exact h.elim

theorem listLoop_cells {n : Nat} : ∀ (cs : List Cell), (∀ c ∈ cs, c.Ok E) → (∀ c ∈ cs, ∀ p ∈ c.pieces, p.Fine S E) →
    ∀ (m : Nat) (rest : List Token), (ctoks (cs.map fun c => tk S c.pieces) ++ tClose :: rest).length ≤ n →
      (ctoks (cs.map fun c => tk S c.pieces) ++ tClose :: rest).length ≤ m →
      ∃ xs, listLoop (element E n) 93 m none (ctoks (cs.map fun c => tk S c.pieces) ++ tClose :: rest) = .ok (xs, rest) ∧ List.Forall₂ CellOf cs xs
  | [], _, _, m, rest, _, hm => by
    obtain ⟨m, rfl⟩ : ∃ k, m = k + 1 := ⟨m - 1, by simp [ctoks] at hm; omega⟩
    exact ⟨[], by show listLoop _ _ _ _ (tClose :: rest) = _; rw [listLoop]; simp [peek_cons], .nil⟩
  | c :: cs, h, hf, m, rest, hn, hm => by
    obtain ⟨tl, htl, hcase⟩ : ∃ tl, ctoks ((c :: cs).map fun c => tk S c.pieces) ++ tClose :: rest = tk S c.pieces ++ tl ∧
        ((cs = [] ∧ tl = tClose :: rest) ∨ (cs ≠ [] ∧ tl = tComma :: (ctoks (cs.map fun c => tk S c.pieces) ++ tClose :: rest))) := by
      cases cs with
      | nil => exact ⟨_, rfl, Or.inl ⟨rfl, rfl⟩⟩
      | cons i items => exact ⟨_, by simp [ctoks], Or.inr ⟨by simp, rfl⟩⟩
    rw [htl] at hn hm ⊢
    have hlen : rest.length < tl.length := by rcases hcase with ⟨_, rfl⟩ | ⟨_, rfl⟩ <;> simp <;> omega
    have hst : Stop tl := by rcases hcase with ⟨_, rfl⟩ | ⟨_, rfl⟩ <;> constructor <;> simp [peek_cons]
    -- what remains after the element has been read
    have go : ∀ (m' : Nat) (e : Elem), tl.length ≤ m' + 1 → CellOf c e →
        ∃ xs, (if (peekTok tl).type = 93 then .ok ([e], tl.tail)
          else if (peekTok tl).type = 44 then (listLoop (element E n) 93 m' none tl.tail).map fun x => (e :: x.1, x.2)
          else (.error (.syntax (peekTok tl)) : R (List Elem))) = .ok (xs, rest) ∧ List.Forall₂ CellOf (c :: cs) xs := by
      intro m' e hm' he
      rcases hcase with ⟨rfl, rfl⟩ | ⟨hne, rfl⟩
      · exact ⟨[e], by simp [peek_cons], .cons he .nil⟩
      · obtain ⟨xs, e', hxs⟩ := listLoop_cells (n := n) cs (fun c hc => h c (List.mem_cons_of_mem _ hc)) (fun c hc => hf c (List.mem_cons_of_mem _ hc)) m' rest
          (by simp only [List.length_append, List.length_cons] at hn ⊢; omega) (by simp only [List.length_append, List.length_cons] at hm' ⊢; omega)
        refine ⟨e :: xs, ?_, .cons he hxs⟩
        simp only [peek_cons, show (44 : Nat) ≠ 93 by decide, if_false, if_true, List.tail_cons, e']
        rfl
    cases c with
    | one v =>
      obtain ⟨⟨a, q', hq, ha, ha'⟩, hr⟩ := reads_val (S := S) v (h (.one v) List.mem_cons_self) (hf (.one v) List.mem_cons_self)
      obtain ⟨x, e, hx⟩ := hr n tl hn hst
      rw [show tk S (Cell.one v).pieces = a :: q' from hq] at hn hm ⊢
      rw [hq] at e
      have e : element E n a (q' ++ tl) = .ok (x, tl) := e
      obtain ⟨m, rfl⟩ : ∃ k, m = k + 1 := ⟨m - 1, by simp at hm; omega⟩
      obtain ⟨xs, e2, hxs⟩ := go m (.one x) (by simp at hm; omega) hx
      refine ⟨xs, ?_, hxs⟩
      rw [List.cons_append, listLoop]
      simp only [peek_cons, ha, and_false, if_false, List.tail_cons, e]
      rw [← e2]
      rcases hcase with ⟨_, rfl⟩ | ⟨_, rfl⟩
      · simp [peek_cons]
      · simp [peek_cons]
    | entry k v =>
      obtain ⟨hk, hpl, hwf, hv⟩ := h (.entry k v) List.mem_cons_self
      have hfk := hf (.entry k v) List.mem_cons_self
      obtain ⟨⟨a, q', hq, ha, ha'⟩, hr⟩ := reads_val (S := S) k hk fun p hp => hfk p (List.mem_append_left _ hp)
      obtain ⟨⟨b, r', hq2, hb, hb'⟩, hr2⟩ := reads_val (S := S) v hv fun p hp => hfk p (List.mem_append_right _ (List.mem_cons_of_mem _ hp))
      have hpc : tk S (Cell.entry k v).pieces = a :: q' ++ tRock :: b :: r' := by
        show tk S (valPieces k ++ .rocket :: valPieces v) = _
        rw [tk_append, hq, ← hq2]
        rfl
      rw [hpc] at hn hm ⊢
      rw [show (a :: q' ++ tRock :: b :: r') ++ tl = a :: (q' ++ tRock :: b :: (r' ++ tl)) by simp] at hn hm ⊢
      obtain ⟨x, e, hx⟩ := hr n (tRock :: b :: (r' ++ tl)) (by rw [hq]; simpa using hn) (by constructor <;> simp [peek_cons, tRocket])
      obtain ⟨y, e2, hy⟩ := hr2 n tl (by rw [hq2]; simp only [List.length_append, List.length_cons] at hn ⊢; omega) hst
      rw [hq] at e
      rw [hq2] at e2
      have e : element E n a (q' ++ tRock :: b :: (r' ++ tl)) = .ok (x, tRock :: b :: (r' ++ tl)) := e
      have e2 : element E n b (r' ++ tl) = .ok (y, tl) := e2
      obtain ⟨m, rfl⟩ : ∃ k, m = k + 2 := ⟨m - 2, by simp at hm; omega⟩
      obtain rfl := plain_toVal hpl hx
      obtain ⟨xs, e3, hxs⟩ := go m (.entry (.val k) y) (by simp at hm; omega) ⟨rfl, hy⟩
      refine ⟨xs, ?_, hxs⟩
      rw [listLoop]
      simp only [peek_cons, ha, and_false, if_false, List.tail_cons, e, show tRocket ≠ 93 by decide, show tRocket ≠ 44 by decide, if_true]
      rw [listLoop]
      simp only [peek_cons, Option.isNone_some, Bool.false_eq_true, false_and, if_false, List.tail_cons, e2]
      rw [← e3]
      rcases hcase with ⟨_, rfl⟩ | ⟨_, rfl⟩
      · simp [peek_cons]
      · simp [peek_cons]

theorem reads_cells (cs : List Cell) (h : ∀ c ∈ cs, c.Ok E) (hf : ∀ c ∈ cs, ∀ p ∈ c.pieces, p.Fine S E) :
    Reads E (tk S (inBrackets (cs.map Cell.pieces))) fun _ x => ∃ vs, x.toVal = some (.arr vs) ∧ Grouped cs vs := by
  rw [tk_brackets, List.map_map]
  refine ⟨⟨_, _, rfl, by simp, by simp⟩, fun n rest hn hs => ?_⟩
  obtain ⟨n, rfl⟩ : ∃ k, n = k + 1 := ⟨n - 1, by simp at hn; omega⟩
  have hl : ctoks (cs.map fun c => tk S c.pieces) ++ [tClose] ++ rest = ctoks (cs.map fun c => tk S c.pieces) ++ tClose :: rest := by simp
  have hn : (ctoks (cs.map fun c => tk S c.pieces) ++ tClose :: rest).length ≤ n := by
    rw [← hl]
    simp only [List.cons_append, List.length_cons] at hn
    exact Nat.le_of_succ_le_succ hn
  obtain ⟨xs, e, hxs⟩ := listLoop_cells (E := E) (S := S) (n := n) cs h hf ((ctoks (cs.map fun c => tk S c.pieces) ++ tClose :: rest).length + 1) rest hn (Nat.le_succ _)
  obtain ⟨⟨vs, ys, e2, ht, hg⟩, _⟩ := convert_grouped hxs h
  refine ⟨.arr ys, ?_, vs, by rw [PV.toVal, ht]; rfl, hg⟩
  show element E (n + 1) tOpen (ctoks (cs.map fun c => tk S c.pieces) ++ [tClose] ++ rest) = _
  rw [element]
  simp only [show (91 : Nat) ≠ 123 by decide, if_false, if_true]
  rw [hl, pList, e]
  dsimp only
  rw [e2]
  rfl

theorem apart_cells (cs : List Cell) : Apart (inBrackets (cs.map Cell.pieces)) := by
  refine apart_cons rfl (apart_sep (b := []) rfl trivial (apart_commas ?_))
  intro a ha
  obtain ⟨c, _, rfl⟩ := List.mem_map.1 ha
  cases c with
  | one v => exact apart_val v
  | entry k v => exact apart_sep rfl (apart_val v) (apart_val k)

/-- The tokens of one entry -/
theorem parseTokens_entry {q r : List Token} {P Q : Nat → PV → Prop} (h : Reads E q P) (h' : Reads E r Q) :
    ∃ k v a b, parseTokens E (q ++ tRock :: r ++ [⟨[], tEnd⟩]) = .ok (.map [(k, v)]) ∧ P a k ∧ Q b v := by
  obtain ⟨k, e, hk⟩ := h.2 ((q ++ tRock :: (r ++ [(⟨[], tEnd⟩ : Token)])).length + 1) (tRock :: (r ++ [⟨[], tEnd⟩])) (Nat.le_succ _)
    (by constructor <;> simp [peek_cons, tRocket])
  obtain ⟨v, e', hv⟩ := h'.2 ((r ++ [(⟨[], tEnd⟩ : Token)]).length + 1) [⟨[], tEnd⟩] (Nat.le_succ _) (by constructor <;> simp [peek_cons, tEnd])
  refine ⟨k, v, _, _, ?_, hk, hv⟩
  rw [List.append_assoc, List.cons_append, parseTokens, e]
  simp only [peek_cons, if_true, List.tail_cons]
  rw [e']
  simp [peek_cons, tEnd]

end Verif.Pcore
