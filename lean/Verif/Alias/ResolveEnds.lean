import Verif.Alias.ResolveAll
/-! # `Replace` returns -/
set_option autoImplicit false
set_option linter.unusedVariables false
set_option linter.unusedSimpArgs false
set_option linter.unusedSectionVars false
namespace Verif.Alias.Res

variable {get : Name → Option Nat} {H0 : Heap}

theorem slice_ends {R : Nat → Prop} {rep : St → Nat → Out Nat} (hr : RepOk get H0 R rep) (B : Nat → Prop) (ts : List Nat)
    (hR : ∀ t, t ∈ ts → R t) (he : ∀ s, Ok get H0 s.heap B → ∀ t, t ∈ ts → rep s t ≠ .more) (s : St) (hok : Ok get H0 s.heap B) :
    resolveSlice rep s ts ≠ .more := by
  induction ts generalizing s with
  | nil => simp [resolveSlice]
  | cons t ts ih =>
    have h1 := hr s t B hok (hR t (by simp))
    have h2 := he s hok t (by simp)
    simp only [resolveSlice]
    cases e1 : rep s t with
    | more => exact absurd e1 h2
    | panic s1 => simp [Out.bind]
    | ret s1 q =>
      rw [e1] at h1
      have := ih (fun t' ht' => hR t' (by simp [ht'])) (fun s hs t' ht' => he s hs t' (by simp [ht'])) s1 h1.1
      simp only [Out.bind]
      cases e2 : resolveSlice rep s1 ts with
      | more => exact absurd e2 this
      | panic s2 => simp
      | ret s2 qs => simp

theorem isValue_withKids {nd : Node} {ys : List Nat} (h : Fits nd ys) : IsValue (nd.withKids ys) ↔ IsValue nd := by
  unfold Fits at h
  cases nd with
  | arr t | not t | typeOf t | exactArr t | exactMap t =>
    match ys, h with
    | [_], _ => simp [Node.withKids, IsValue]
  | map k v =>
    match ys, h with
    | [_, _], _ => simp [Node.withKids, IsValue]
  | _ => simp [Node.withKids, IsValue]

theorem leaf_ends {n : Nat} (hn : 0 < n) {s : St} {p : Nat} {e : Bool} (h : s.heap p = .leaf e) : replace get n s p ≠ .more := by
  obtain ⟨n, rfl⟩ : ∃ m, n = m + 1 := ⟨n - 1, by omega⟩
  rw [replace.eq_def]
  simp [h, resolve, Out.bind]

theorem bind_more {α β : Type} {x : Out α} {f : St → α → Out β} (hx : x ≠ .more) (hf : ∀ s a, x = .ret s a → f s a ≠ .more) : x.bind f ≠ .more := by
  cases x with
  | more => exact absurd rfl hx
  | panic s => simp [Out.bind]
  | ret s a => exact hf s a rfl

theorem filter_less (L bs : List Nat) (p : Nat) (hp : p ∈ L) (hb : p ∉ bs) :
    (L.filter fun x => decide (x ∉ p :: bs)).length < (L.filter fun x => decide (x ∉ bs)).length := by
  have hle : ∀ l : List Nat, (l.filter fun x => decide (x ∉ p :: bs)).length ≤ (l.filter fun x => decide (x ∉ bs)).length := by
    intro l
    refine List.Sublist.length_le (List.monotone_filter_right l fun x => ?_)
    simp
  induction L with
  | nil => simp at hp
  | cons a L ih =>
    by_cases ha : a = p
    · subst ha
      have := hle L
      rw [List.filter_cons_of_neg (by simp), List.filter_cons_of_pos (by simpa using hb)]
      simp only [List.length_cons]; omega
    · have := ih ((List.mem_cons.mp hp).resolve_left fun h => ha h.symm)
      by_cases hab : a ∈ bs
      · rw [List.filter_cons_of_neg (by simp [hab]), List.filter_cons_of_neg (by simp [hab])]; exact this
      · rw [List.filter_cons_of_pos (by simp [hab, ha]), List.filter_cons_of_pos (by simp [hab])]
        simp only [List.length_cons]; omega

theorem cells_ends {R : Nat → Prop} (hc : NoChain get H0) {rep : St → Nat → Out Nat} (hany : R anyT) (hcl : Closed get H0 R)
    (hr : RepOk get H0 R rep) (B : Nat → Prop) (p : Nat) (hp : R p) (hv : isVal (H0 p) = true)
    (he : ∀ s, Ok get H0 s.heap B → ∀ y, y ∈ (s.heap p).kids → rep s y ≠ .more) (k i : Nat) (s : St) (hok : Ok get H0 s.heap B) (hpB : ¬ B p) 
    (hi : i + k ≤ (H0 p).kids.length) :
    resolveCells rep p i k s ≠ .more := by
  induction k generalizing i s with
  | zero => simp [resolveCells]
  | succ k ih =>
    have hbt := (hok p).2 hpB
    have hvs : isVal (s.heap p) = true := by rw [hbt.eq]; exact (val_withKids hv _).1
    rw [resolveCells, cells_val hvs]
    split
    · rename_i y hy
      have hm := List.mem_of_getElem? hy
      refine bind_more (he s hok y hm) fun s1 q e1 => ?_
      have h1 := hr s y B hok (closed_current hany hcl hok hp y hm)
      rw [e1] at h1
      have ok1 := h1.1
      have g1 := h1.2.1
      have hbt1 := (ok1 p).2 hpB
      have hvs1 : isVal (s1.heap p) = true := by rw [hbt1.eq]; exact (val_withKids hv _).1
      have hlen1 := hbt1.len
      unfold Fits at hlen1
      obtain ⟨x, hx⟩ : ∃ x, (H0 p).kids[i]? = some x := ⟨_, List.getElem?_eq_getElem (by omega)⟩
      have hq : q = standsFor get H0 x := by
        have hxy := forall₂_get hbt.kids hx hy
        rw [g1]
        rcases hxy with rfl | rfl
        · rfl
        · exact stands_idem hc x
      refine ih (i + 1) _ ?_ (by omega)
      rw [setCell_val hvs1]
      intro a
      by_cases ha : a = p
      · subst ha
        refine ⟨fun h => absurd h hpB, fun _ => ⟨(s1.heap a).kids.set i q, forall₂_set hbt1.kids hx (Or.inr hq), ?_⟩⟩
        show upd _ a _ a = _
        rw [write_heap_same]
        conv => lhs; arg 1; rw [hbt1.eq]
        rw [withKids_withKids hbt1.len (by simp [Fits, hlen1])]
      · refine ⟨fun h => ?_, fun h => ?_⟩
        · show _ ∧ upd _ p _ a = _
          rw [write_heap_other ha]; exact (ok1 a).1 h
        · obtain ⟨ys, hf, he⟩ := (ok1 a).2 h
          exact ⟨ys, hf, by show upd _ p _ a = _; rw [write_heap_other ha]; exact he⟩
    · simp

/-- The depth that suffices: `m` types that are not being gone through, values of rank at most `K`. -/
def enough (K m r : Nat) : Nat := m * (K + 4) + r + 2

open Classical in
theorem replace_ends {R : Nat → Prop} (hwf : WF H0) (hc : NoChain get H0) (hany : R anyT) (hcl : Closed get H0 R) (L : List Nat) (hL : ∀ a, R a → a ∈ L)
    {r : Nat → Nat} {K : Nat} (hK : ∀ a, r a ≤ K)
    (hr : ∀ a b c, IsValue (H0 a) → b ∈ (H0 a).kids → (c = b ∨ c = standsFor get H0 b) → IsValue (H0 c) → r c < r a) (n : Nat) (bs : List Nat) (s : St) (p : Nat)
    (hok : Ok get H0 s.heap (· ∈ bs)) (hp : R p)
    (hn : enough K (L.filter fun x => decide (x ∉ bs)).length (if IsValue (H0 p) then r p + 1 else 0) ≤ n) : replace get n s p ≠ .more := by
  induction n generalizing bs s p with
  | zero => unfold enough at hn; omega
  | succ n ih =>
    have hrep := replace_post hwf hc hany hcl n
    by_cases ha : IsAlias (H0 p)
    · obtain ⟨nm, hnm⟩ := ha
      rw [replace.eq_def]
      simp only [(hok.alias p nm).2 hnm]
      cases get nm <;> simp
    · have e : replace get (n + 1) s p = (resolve (replace get n) s p (s.heap p)).bind fun s _ => .ret s p := by
        rw [replace.eq_def]
        dsimp only
        split
        · rename_i nm he; exact absurd ⟨nm, (hok.alias p nm).1 he⟩ ha
        · rfl
      rw [e]
      refine bind_more ?_ fun _ _ _ => by simp
      by_cases hb : isBox (s.heap p) = true
      · have hb0 : isBox (H0 p) = true := by rw [← hok.box]; exact hb
        rw [resolve_box _ s p _ hb]
        refine bind_more ?_ fun _ _ _ => fin_more
        have ok1 : Ok get H0 (s.write p (blank (s.heap p))).heap (fun z => z ∈ bs ∨ z = p) := ok_blank hok hb0
        by_cases hpb : p ∈ bs
        · refine slice_ends hrep (fun z => z ∈ bs ∨ z = p) _ (closed_current hany hcl hok hp) (fun s1 ok1 t ht => ?_) _ ok1
          rw [((hok p).1 hpb).2] at ht
          have := blank_kids hb0 t ht
          subst this
          have hz : ¬ (anyT ∈ bs ∨ anyT = p) := by
            have hnb : ¬ isBox (H0 anyT) = true := by rw [hwf.any]; simp [isBox]
            rintro (h | h)
            · exact hnb ((hok anyT).1 h).1
            · rw [h] at hnb; exact hnb hb0
          have hbt := (ok1 anyT).2 hz
          refine leaf_ends (e := false) (by unfold enough at hn; omega) ?_
          rw [hbt.eq, hwf.any]; rfl
        · have hB : (fun z => z ∈ bs ∨ z = p) = (fun z => z ∈ p :: bs) := by
            funext z; simp [or_comm]
          rw [hB] at ok1
          refine slice_ends hrep _ _ (closed_current hany hcl hok hp) (fun s1 ok2 t ht => ?_) _ ok1
          refine ih (p :: bs) s1 t ok2 (closed_current hany hcl hok hp t ht) ?_
          have hlt := filter_less L bs p (hL p hp) hpb
          have hrk : (if IsValue (H0 t) then r t + 1 else 0) ≤ K + 1 := by
            split
            · have := hK t; omega
            · omega
          unfold enough at hn ⊢
          obtain ⟨m, hm⟩ : ∃ m, (L.filter fun x => decide (x ∉ bs)).length = m + 1 := ⟨_, (Nat.succ_pred (by omega)).symm⟩
          rw [hm] at hn hlt
          have h1 : (L.filter fun x => decide (x ∉ p :: bs)).length * (K + 4) ≤ m * (K + 4) := Nat.mul_le_mul_right _ (by omega)
          rw [Nat.succ_mul] at hn
          omega
      · have hb0 : isBox (H0 p) = false := by rw [← hok.box]; simpa using hb
        have hpB : ¬ p ∈ bs := fun h => by
          have := ((hok p).1 h).1
          rw [hb0] at this; cases this
        have hbt := (hok p).2 hpB
        -- the kids of values
        have hkid : IsValue (H0 p) → ∀ s1 : St, Ok get H0 s1.heap (· ∈ bs) → ∀ y, y ∈ (s1.heap p).kids → replace get n s1 y ≠ .more := by
          intro hv s1 ok1 y hy
          have hyR := closed_current hany hcl ok1 hp y hy
          refine ih bs s1 y ok1 hyR ?_
          have hlt : (if IsValue (H0 y) then r y + 1 else 0) ≤ r p := by
            split
            · rename_i hvy
              rcases ok1.kids_mem p y hy with ⟨x, hx, h⟩ | h
              · have := hr p x y hv hx h hvy; omega
              · rw [h, hwf.any] at hvy; exact hvy.elim
            · omega
          rw [if_pos hv] at hn
          unfold enough at hn ⊢
          omega
        have hvs : IsValue (s.heap p) ↔ IsValue (H0 p) := by rw [hbt.eq]; exact isValue_withKids hbt.len
        have hl := hbt.len
        unfold Fits at hl
        have hsl := (same_leaf hbt.len).2
        rw [← hbt.eq] at hsl
        cases hs : s.heap p with
        | «alias» nm => simp [resolve]
        | leaf e => simp [resolve]
        | «opaque» ps => simp [resolve]
        | exactArr v =>
          have hv : IsValue (H0 p) := by rw [← hvs, hs]; trivial
          exact bind_more (hkid hv s hok v (by rw [hs]; simp [Node.kids, Node.parts])) fun _ _ _ => by simp
        | exactMap v =>
          have hv : IsValue (H0 p) := by rw [← hvs, hs]; trivial
          exact bind_more (hkid hv s hok v (by rw [hs]; simp [Node.kids, Node.parts])) fun _ _ _ => by simp
        | array es =>
          have hv : IsValue (H0 p) := by rw [← hvs, hs]; trivial
          rw [hs] at hl
          exact cells_ends hc hany hcl hrep _ p hp (by rw [← hsl, hs]; rfl) (hkid hv) es.length 0 s hok hpB (by rw [← hl]; simp [Node.kids, Node.parts])
        | hash es =>
          have hv : IsValue (H0 p) := by rw [← hvs, hs]; trivial
          rw [hs] at hl
          exact cells_ends hc hany hcl hrep _ p hp (by rw [← hsl, hs]; rfl) (hkid hv) es.length 0 s hok hpB (by rw [← hl]; simp [Node.kids, Node.parts])
        | _ => rw [hs] at hb; simp [isBox] at hb

end Verif.Alias.Res
