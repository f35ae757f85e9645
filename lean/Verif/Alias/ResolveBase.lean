import Verif.Alias.ResolveSpec
/-! # Lemmas about nodes and single steps of resolving -/
set_option autoImplicit false
set_option linter.unusedVariables false
set_option linter.unusedSimpArgs false
set_option linter.unusedSectionVars false
namespace Verif.Alias.Res

/-- The nine kinds of types that `Resolve` empties while it goes through what is in them -/
def isBox : Node → Bool
  | .arr _ | .not _ | .typeOf _ | .map _ _ | .tuple _ | .allOf _ | .anyOf _ | .oneOf _ | .struct _ => true
  | _ => false

def blank : Node → Node
  | .arr _ => .arr anyT
  | .not _ => .not anyT
  | .typeOf _ => .typeOf anyT
  | .map _ _ => .map anyT anyT
  | .tuple _ => .tuple []
  | .allOf _ => .allOf []
  | .anyOf _ => .anyOf []
  | .oneOf _ => .oneOf []
  | .struct _ => .struct []
  | nd => nd

def flat (es : List (Nat × Nat)) : List Nat := es.flatMap fun e => [e.1, e.2]

theorem flat_cons (k v : Nat) (es : List (Nat × Nat)) : flat ((k, v) :: es) = k :: v :: flat es := rfl

theorem pairUp_flat (es : List (Nat × Nat)) : pairUp (flat es) = es := by
  induction es with
  | nil => rfl
  | cons e es ih => obtain ⟨k, v⟩ := e; rw [flat_cons, pairUp, ih]

/-- A list that can be the parts of the node -/
def Fits (nd : Node) (ys : List Nat) : Prop := ys.length = nd.kids.length

theorem flat_length (es : List (Nat × Nat)) : (flat es).length = 2 * es.length := by
  induction es with
  | nil => rfl
  | cons e es ih => obtain ⟨k, v⟩ := e; rw [flat_cons]; simp [ih]; omega

theorem flat_pairUp (m : Nat) (ys : List Nat) (h : ys.length = 2 * m) : flat (pairUp ys) = ys := by
  induction m generalizing ys with
  | zero => rw [List.length_eq_zero_iff.mp (show ys.length = 0 by omega)]; rfl
  | succ m ih =>
    match ys, h with
    | k :: v :: r, h =>
      rw [pairUp, flat_cons, ih r (by simp at h; omega)]

theorem pairUp_length (m : Nat) (ys : List Nat) (h : ys.length = 2 * m) : (pairUp ys).length = m := by
  have := flat_length (pairUp ys)
  rw [flat_pairUp m ys h] at this; omega

theorem kids_withKids {nd : Node} {ys : List Nat} (h : Fits nd ys) : (nd.withKids ys).kids = ys := by
  unfold Fits at h
  cases nd with
  | struct es =>
    have : (Node.struct es).kids = flat es := rfl
    rw [this, flat_length] at h
    exact flat_pairUp es.length ys h
  | arr t | not t | typeOf t | exactArr t | exactMap t =>
    match ys, h with
    | [y], _ => rfl
  | map k v =>
    match ys, h with
    | [x, y], _ => rfl
  | «alias» n | leaf e | «opaque» ps =>
    have : ys = [] := List.length_eq_zero_iff.mp h
    subst this; rfl
  | tuple ts | allOf ts | anyOf ts | oneOf ts | array es | hash vs => rfl

theorem withKids_kids (nd : Node) : nd.withKids nd.kids = nd := by
  cases nd with
  | struct es => exact congrArg Node.struct (pairUp_flat es)
  | _ => rfl

theorem withKids_withKids {nd : Node} {ys zs : List Nat} (hy : Fits nd ys) (hz : Fits nd zs) :
    (nd.withKids ys).withKids zs = nd.withKids zs := by
  unfold Fits at hy hz
  cases nd with
  | arr t | not t | typeOf t | exactArr t | exactMap t =>
    match ys, zs, hy, hz with
    | [_], [_], _, _ => rfl
  | map k v =>
    match ys, zs, hy, hz with
    | [_, _], [_, _], _, _ => rfl
  | _ => rfl

theorem blank_withKids {nd : Node} {ys : List Nat} (h : Fits nd ys) (hb : isBox nd = true) : blank (nd.withKids ys) = blank nd := by
  unfold Fits at h
  cases nd with
  | arr t | not t | typeOf t =>
    match ys, h with
    | [_], _ => rfl
  | map k v =>
    match ys, h with
    | [_, _], _ => rfl
  | tuple ts | allOf ts | anyOf ts | oneOf ts | struct es => rfl
  | _ => simp [isBox] at hb

theorem isBox_withKids {nd : Node} {ys : List Nat} (h : Fits nd ys) : isBox (nd.withKids ys) = isBox nd := by
  unfold Fits at h
  cases nd with
  | arr t | not t | typeOf t | exactArr t | exactMap t =>
    match ys, h with
    | [_], _ => rfl
  | map k v =>
    match ys, h with
    | [_, _], _ => rfl
  | _ => rfl

theorem isExact_withKids {nd : Node} {ys : List Nat} (h : Fits nd ys) : isExact (nd.withKids ys) = isExact nd := by
  unfold Fits at h
  cases nd with
  | arr t | not t | typeOf t | exactArr t | exactMap t =>
    match ys, h with
    | [_], _ => rfl
  | map k v =>
    match ys, h with
    | [_, _], _ => rfl
  | _ => rfl

theorem isExact_box {nd : Node} (h : isBox nd = true) : isExact nd = false := by
  cases nd <;> simp_all [isBox, isExact]

theorem isBox_blank {nd : Node} (h : isBox nd = true) : isBox (blank nd) = true := by
  cases nd <;> simp_all [isBox, blank]

theorem blank_blank (nd : Node) : blank (blank nd) = blank nd := by cases nd <;> rfl

theorem blank_kids {nd : Node} (h : isBox nd = true) : ∀ x, x ∈ (blank nd).kids → x = anyT := by
  cases nd <;> simp_all [isBox, blank, Node.kids, Node.parts]

theorem alias_withKids {nd : Node} {ys : List Nat} (h : Fits nd ys) (n : Name) : nd.withKids ys = .alias n ↔ nd = .alias n := by
  unfold Fits at h
  cases nd with
  | arr t | not t | typeOf t | exactArr t | exactMap t =>
    match ys, h with
    | [_], _ => simp [Node.withKids]
  | map k v =>
    match ys, h with
    | [_, _], _ => simp [Node.withKids]
  | _ => simp [Node.withKids]

theorem blank_not_alias {nd : Node} (h : isBox nd = true) (n : Name) : blank nd ≠ .alias n := by
  cases nd <;> simp_all [isBox, blank]

theorem kids_eq_parts {nd : Node} (h : ∀ ps, nd ≠ .opaque ps) : nd.kids = nd.parts := by
  cases nd with
  | «opaque» ps => exact absurd rfl (h ps)
  | _ => rfl

/-! ## Outcomes -/

theorem bind_assoc {α β γ : Type} (x : Out α) (f : St → α → Out β) (g : St → β → Out γ) :
    (x.bind f).bind g = x.bind fun s a => (f s a).bind g := by
  cases x <;> rfl

theorem bind_ret {α : Type} (x : Out α) : (x.bind fun s a => .ret s a) = x := by cases x <;> rfl

theorem entries_slice (rep : St → Nat → Out Nat) (s : St) (es : List (Nat × Nat)) :
    resolveEntries rep s es = (resolveSlice rep s (flat es)).bind fun s qs => .ret s (pairUp qs) := by
  induction es generalizing s with
  | nil => rfl
  | cons e es ih =>
    obtain ⟨k, v⟩ := e
    rw [flat_cons]
    simp only [resolveEntries, resolveSlice, bind_assoc]
    congr 1; funext s k'
    congr 1; funext s v'
    rw [ih, bind_assoc]
    congr 1

/-- What is done at the end -/
def fin (s : St) (p : Nat) (nd : Node) (qs : List Nat) : Out Unit :=
  match nd with
  | .struct _ => checkExactKeys (s.write p (.struct (pairUp qs))) (pairUp qs)
  | nd => .ret (s.write p (nd.withKids qs)) ()

theorem slice_length {rep : St → Nat → Out Nat} {ts qs : List Nat} {s s' : St} (h : resolveSlice rep s ts = .ret s' qs) :
    qs.length = ts.length := by
  induction ts generalizing s s' qs with
  | nil => cases h; rfl
  | cons t ts ih =>
    simp only [resolveSlice] at h
    cases h1 : rep s t with
    | ret s1 q =>
      rw [h1] at h; simp only [Out.bind] at h
      cases h2 : resolveSlice rep s1 ts with
      | ret s2 qs' =>
        rw [h2] at h; simp only [Out.ret.injEq] at h
        rw [← h.2]; simp [ih h2]
      | panic s2 => rw [h2] at h; simp at h
      | more => rw [h2] at h; simp at h
    | panic s1 => rw [h1] at h; simp [Out.bind] at h
    | more => rw [h1] at h; simp [Out.bind] at h

/-- All boxes do the same. -/
theorem resolve_box (rep : St → Nat → Out Nat) (s : St) (p : Nat) (nd : Node) (h : isBox nd = true) :
    resolve rep s p nd = (resolveSlice rep (s.write p (blank nd)) nd.kids).bind fun s qs => fin s p nd qs := by
  cases nd with
  | struct es =>
    simp only [resolve, entries_slice, bind_assoc]
    rfl
  | arr t | not t | typeOf t =>
    simp only [resolve, Node.kids, Node.parts, resolveSlice, bind_assoc, blank]
    congr 1
  | map k v =>
    simp only [resolve, Node.kids, Node.parts, resolveSlice, bind_assoc, blank]
    congr 1
  | tuple ts | allOf ts | anyOf ts | oneOf ts => rfl
  | _ => simp [isBox] at h

end Verif.Alias.Res
