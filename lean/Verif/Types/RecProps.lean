import Verif.Types.RecWalk
/-!
# C81: Instance of types that contain themselves
-/
set_option autoImplicit false
set_option linter.unusedVariables false
set_option linter.unusedSimpArgs false
namespace Verif.Types.Rec
open Verif.Value

theorem returns_of {T : Types} {H : Heap} {n t : Nat} {v : V} {b : Bool} {g : G} (h : inst T H n none t v = some (b, g)) : Returns T H t v b :=
  ⟨n, fun m hm => by rw [instance?, inst_mono hm none t v _ h]; rfl⟩

theorem Returns.unique {T : Types} {H : Heap} {t : Nat} {v : V} {b b' : Bool} (h : Returns T H t v b) (h' : Returns T H t v b') : b = b' := by
  obtain ⟨n, h⟩ := h
  obtain ⟨n', h'⟩ := h'
  have h1 := h (max n n') (Nat.le_max_left _ _)
  have h2 := h' (max n n') (Nat.le_max_right _ _)
  rw [h1] at h2; exact Option.some.inj h2

theorem Says.mono {H : Heap} {S S' : Nat → V → Prop} {node : Node} (hp : node.isAnti = false) (h : ∀ t v, S t v → S' t v) {v : V}
    (hs : Says H S node v) : Says H S' node v := by
  cases node with
  | any => trivial
  | prim p => exact hs
  | exact p => exact hs
  | arr e lo hi => obtain ⟨vs, h1, h2, h3, h4⟩ := hs; exact ⟨vs, h1, h2, h3, fun x hx => h _ _ (h4 x hx)⟩
  | tuple ts b =>
    cases b
    · obtain ⟨vs, h1, h2, h3⟩ := hs; exact ⟨vs, h1, h2, fun i t x a b => h _ _ (h3 i t x a b)⟩
    · obtain ⟨vs, h1, h2, h3⟩ := hs; exact ⟨vs, h1, h2, fun i t x a b => h _ _ (h3 i t x a b)⟩
  | map k x lo hi => obtain ⟨vs, h1, h2, h3, h4⟩ := hs; exact ⟨vs, h1, h2, h3, fun e he => ⟨h _ _ (h4 e he).1, h _ _ (h4 e he).2⟩⟩
  | struct a fs => obtain ⟨es, h1, h2, h3⟩ := hs; exact ⟨es, h1, fun f hf => ⟨fun x hx => h _ _ ((h2 f hf).1 x hx), (h2 f hf).2⟩, h3⟩
  | allOf ts => exact fun t ht => h _ _ (hs t ht)
  | anyOf ts => obtain ⟨t, ht, hs⟩ := hs; exact ⟨t, ht, h _ _ hs⟩
  | oneOf ts => cases hp
  | not t => cases hp
  | sens t => obtain ⟨x, hx, hs⟩ := hs; exact ⟨x, hx, h _ _ hs⟩

theorem conforms_consistent {T : Types} {H : Heap} (hp : Positive T) : Consistent T H (Conforms T H) := by
  rintro t node hn v ⟨S, hS, hs⟩
  exact Says.mono (hp node (List.mem_of_getElem? hn)) (fun t v h => ⟨S, hS, h⟩) (hS t node hn v hs)

/-- Where there is no `not` and no `oneOf`, conforming is a reading of the types: a value conforms exactly if it is as the type says and
its parts conform. -/
theorem conforms_reading {T : Types} {H : Heap} (hp : Positive T) : Reading T H (Conforms T H) := by
  intro t node hn v
  refine ⟨conforms_consistent hp t node hn v, fun h => ?_⟩
  refine ⟨fun u x => Conforms T H u x ∨ ∃ nd, T[u]? = some nd ∧ Says H (Conforms T H) nd x, ?_, Or.inr ⟨node, hn, h⟩⟩
  intro u nd hu x hx
  refine Says.mono (S := Conforms T H) (hp nd (List.mem_of_getElem? hu)) (fun t v h => Or.inl h) ?_
  rcases hx with hx | ⟨nd', hu', hx⟩
  · exact conforms_consistent hp u nd hu x hx
  · rw [hu] at hu'; cases hu'; exact hx

/-! ## C81 -/

/-- **C81** `Instance` returns for all types and values, however they contain themselves, unless a type is its own operand or contains itself
through `not` or `sensitive`. -/
theorem C81_returns (T : Types) (H : Heap) (hc : Closed T H) (op level : Nat → Nat) (hop : Contractive T op) (hlev : Stratified T level)
    (t : Nat) (ht : t < T.length) (v : V) (hv : Valid H v) : ∃ b, Returns T H t v b := by
  obtain ⟨K, hK⟩ := bound_exists op T.length
  obtain ⟨b, g, h, _⟩ := graph (S := fun _ _ => True) (up := False) hc hop hlev hK (Nat.le_refl _) (fun _ _ _ => True.intro) (fun h => h.elim) (fun _ _ _ => id)
    _ none t v (Nat.lt_succ_self _) ht hv True.intro
  exact ⟨b, returns_of h⟩

/-- **C81** On values that do not contain themselves `Instance` returns for all types, unless a type is its own operand. -/
theorem C81_returns_finite (T : Types) (H : Heap) (hc : ∀ node ∈ T, ∀ t ∈ node.refs, t < T.length) (op height : Nat → Nat)
    (hop : Contractive T op) (hv : ValueTree H height) (t : Nat) (ht : t < T.length) (v : V) : ∃ b, Returns T H t v b := by
  obtain ⟨K, hK⟩ := bound_exists op T.length
  obtain ⟨b, g, h, _⟩ := value_tree (S := fun _ _ => True) (up := False) (down := False) hv hop hK hc (fun _ _ _ => True.intro) (fun h => h.elim)
    (fun h => h.elim) (fun _ _ _ => Or.inr ⟨id, id⟩) _ none t v (Nat.lt_succ_self _) ht (fun h => h.elim)
  exact ⟨b, returns_of h⟩

/-- **C81** A value that conforms to a type is accepted, for all types and values that contain themselves, without `not` and `oneOf`. -/
theorem C81_accepts (T : Types) (H : Heap) (hc : Closed T H) (op level : Nat → Nat) (hop : Contractive T op) (hlev : Stratified T level)
    (hp : Positive T) (t : Nat) (ht : t < T.length) (v : V) (hv : Valid H v) (h : Conforms T H t v) : Returns T H t v true := by
  obtain ⟨K, hK⟩ := bound_exists op T.length
  obtain ⟨b, g, h1, _, h2, _⟩ := graph (S := Conforms T H) (up := True) hc hop hlev hK (Nat.le_refl _) (conforms_reading hp).any
    (fun _ => conforms_consistent hp) (fun node hn ha => by rw [hp node hn] at ha; cases ha) _ none t v (Nat.lt_succ_self _) ht hv True.intro
  rw [h2 True.intro h] at h1
  exact returns_of h1

/-- **C81** Types that do not contain themselves accept exactly the values that are as they say, also of values that contain themselves. -/
theorem C81_exact (T : Types) (H : Heap) (hc : ∀ node ∈ T, ∀ t ∈ node.refs, t < T.length) (depth : Nat → Nat) (hd : TypeTree T depth)
    (S : Nat → V → Prop) (hS : Reading T H S) (t : Nat) (ht : t < T.length) (v : V) : ∃ b, Returns T H t v b ∧ (b = true ↔ S t v) := by
  obtain ⟨b, g, h1, _, h2, h3⟩ := type_tree hd hc hS _ none t v (Nat.lt_succ_self _) ht True.intro
  exact ⟨b, returns_of h1, h3 True.intro, h2 True.intro⟩

/-- **C81** (partial) Types that may contain themselves accept exactly the values that are as they say.  Partial: the values must not
contain themselves, and the operands of unions and intersections must not be arrays, maps or such types themselves; see
`C81_files_violated`, `C81_data_violated` and `C81_list_violated`. -/
theorem C81_partial (T : Types) (H : Heap) (hc : ∀ node ∈ T, ∀ t ∈ node.refs, t < T.length) (op height : Nat → Nat) (hop : Contractive T op)
    (hv : ValueTree H height) (hf : Flat T) (S : Nat → V → Prop) (hS : Reading T H S) (t : Nat) (ht : t < T.length) (v : V) :
    ∃ b, Returns T H t v b ∧ (b = true ↔ S t v) := by
  obtain ⟨K, hK⟩ := bound_exists op T.length
  obtain ⟨b, g, h1, _, h2, h3⟩ := value_tree (S := S) (up := True) (down := True) hv hop hK hc hS.any (fun _ t nd hn v h => (hS t nd hn v).1 h)
    (fun _ => ⟨hS, hf⟩) (fun _ _ _ => Or.inl ⟨trivial, trivial⟩) _ none t v (Nat.lt_succ_self _) ht (fun _ => ⟨True.intro, fun _ => True.intro⟩)
  exact ⟨b, returns_of h1, h3 True.intro, h2 True.intro⟩

/-! ## Examples -/

namespace Ex

def isStr : View → Bool
  | .atom (.str _) => true
  | _ => false

def isInt : View → Bool
  | .atom (.int _) => true
  | _ => false

def big : Nat := 9223372036854775807

/-- The example of docs/types.md: `files=map[string](int|files)` -/
def files : Types := [.map 1 2 0 big, .prim isStr, .anyOf [3, 0], .prim isInt]

/-- `{"a":{"b":1}}` and `{"a":{"b":"x"}}` -/
def good : Heap := [.map [(.str [97], .obj 1)], .map [(.str [98], .atom (.int 1))]]
def bad : Heap := [.map [(.str [97], .obj 1)], .map [(.str [98], .atom (.str [120]))]]

/-- A map that contains itself -/
def loop : Heap := [.map [(.str [97], .obj 0), (.str [98], .atom (.int 1))]]

def op : Nat → Nat := fun t => if t = 2 then 1 else 0

theorem files_closed {H : Heap} (h : ∀ o ∈ H, ∀ v ∈ o.parts, Valid H v) : Closed files H :=
  ⟨by simp [files, Node.refs], h⟩

theorem files_contractive : Contractive files op := by
  intro t node hn ho u hu
  match t, hn with
  | 0, hn => cases hn; cases ho
  | 1, hn => cases hn; cases ho
  | 2, hn => cases hn; simp only [Node.refs, List.mem_cons, List.not_mem_nil, or_false] at hu; rcases hu with rfl | rfl <;> decide
  | 3, hn => cases hn; cases ho
  | n + 4, hn => simp [files] at hn

theorem files_stratified : Stratified files fun _ => 0 := by
  intro t node hn u hu
  refine ⟨Nat.le_refl _, fun hb => ?_⟩
  have hm := List.mem_of_getElem? hn
  simp only [files, List.mem_cons, List.not_mem_nil, or_false] at hm
  rcases hm with rfl | rfl | rfl | rfl <;> cases hb

theorem files_positive : Positive files := by
  intro node hm
  simp only [files, List.mem_cons, List.not_mem_nil, or_false] at hm
  rcases hm with rfl | rfl | rfl | rfl <;> rfl

end Ex

/-- `Instance` returns for the type and a map that contains itself. -/
example : ∃ b, Returns Ex.files Ex.loop 0 (.obj 0) b :=
  C81_returns _ _ (Ex.files_closed (by simp [Ex.loop, Obj.parts, Valid])) Ex.op _ Ex.files_contractive Ex.files_stratified 0 (by decide) _ (by simp [Valid, Ex.loop])

example : ∃ b, Returns Ex.files Ex.good 0 (.obj 0) b :=
  C81_returns_finite _ _ (Ex.files_closed (H := []) (by simp)).types Ex.op (fun p => 1 - p) Ex.files_contractive (by
    intro p o hp v hv
    match p, hp with
    | 0, hp => cases hp; simp [Obj.parts] at hv; rcases hv with rfl | rfl <;> simp [size]
    | 1, hp => cases hp; simp [Obj.parts] at hv; rcases hv with rfl | rfl <;> simp [size]
    | n + 2, hp => simp [Ex.good] at hp) 0 (by decide) _

/-- A map that contains itself is a directory. -/
example : Returns Ex.files Ex.loop 0 (.obj 0) true := by
  refine C81_accepts _ _ (Ex.files_closed (by simp [Ex.loop, Obj.parts, Valid])) Ex.op _ Ex.files_contractive Ex.files_stratified Ex.files_positive 0 (by decide) _ (by simp [Valid, Ex.loop])
    ⟨fun t v => (t = 0 ∧ v = .obj 0) ∨ (t = 1 ∧ ∃ s, v = .atom (.str s)) ∨ (t = 2 ∧ (v = .obj 0 ∨ v = .atom (.int 1))) ∨ (t = 3 ∧ v = .atom (.int 1)), ?_,
      Or.inl ⟨rfl, rfl⟩⟩
  rintro t node hn v (⟨rfl, rfl⟩ | ⟨rfl, s, rfl⟩ | ⟨rfl, rfl | rfl⟩ | ⟨rfl, rfl⟩)
  · cases hn
    refine ⟨[(.str [97], .obj 0), (.str [98], .atom (.int 1))], rfl, by decide, by decide, ?_⟩
    intro e he
    simp only [List.mem_cons, List.not_mem_nil, or_false] at he
    rcases he with rfl | rfl <;> simp
  · cases hn; rfl
  · cases hn; exact ⟨0, by simp, by simp⟩
  · cases hn; exact ⟨3, by simp, by simp⟩
  · cases hn; rfl

/-- `[](string|int)` and an array that contains itself, which is no instance -/
example : ∃ b, Returns [.arr 1 0 Ex.big, .anyOf [2, 3], .prim Ex.isStr, .prim Ex.isInt] [.arr [.atom (.int 1), .obj 0]] 0 (.obj 0) b ∧ (b = true ↔
    Conforms [.arr 1 0 Ex.big, .anyOf [2, 3], .prim Ex.isStr, .prim Ex.isInt] [.arr [.atom (.int 1), .obj 0]] 0 (.obj 0)) :=
  C81_exact _ _ (by simp [Node.refs]) (fun t => 3 - t) (by
    intro t node hn u hu
    match t, hn with
    | 0, hn => cases hn; simp [Node.refs] at hu; simp only []; omega
    | 1, hn => cases hn; simp [Node.refs] at hu; simp only []; omega
    | 2, hn => cases hn; simp [Node.refs] at hu
    | 3, hn => cases hn; simp [Node.refs] at hu
    | n + 4, hn => simp at hn) _ (conforms_reading (by
      intro node hm
      simp only [List.mem_cons, List.not_mem_nil, or_false] at hm
      rcases hm with rfl | rfl | rfl | rfl <;> rfl)) 0 (by decide) _

/-- `x=[]x`: arrays of arrays of ..., and `[[],[[]]]` -/
example : ∃ b, Returns [.arr 0 0 Ex.big] [.arr [.obj 1, .obj 2], .arr [], .arr [.obj 1]] 0 (.obj 0) b ∧ (b = true ↔
    Conforms [.arr 0 0 Ex.big] [.arr [.obj 1, .obj 2], .arr [], .arr [.obj 1]] 0 (.obj 0)) :=
  C81_partial _ _ (by simp [Node.refs]) (fun _ => 0) (fun p => if p = 0 then 2 else if p = 2 then 1 else 0) (by
    intro t node hn ho
    match t, hn with
    | 0, hn => cases hn; cases ho
    | n + 1, hn => simp at hn) (by
    intro p o hp v hv
    match p, hp with
    | 0, hp => cases hp; simp [Obj.parts] at hv; rcases hv with rfl | rfl <;> simp [size]
    | 1, hp => cases hp; simp [Obj.parts] at hv
    | 2, hp => cases hp; simp [Obj.parts] at hv; subst hv; simp [size]
    | n + 3, hp => simp at hp) (by
    intro node hm ho
    simp only [List.mem_cons, List.not_mem_nil, or_false] at hm
    subst hm; cases ho) _ (conforms_reading (by
      intro node hm
      simp only [List.mem_cons, List.not_mem_nil, or_false] at hm
      subst hm; rfl)) 0 (by decide) _

/-! ## Where the code does not do what the types say -/

/-- **C81** is false: the type of the documentation accepts `{"a":{"b":"x"}}`, although `"x"` is no integer and no directory.  When the type
is reached again, both the type and the inner map have been seen (the map under `int|files`), and that ends the check. -/
theorem C81_files_violated : Returns Ex.files Ex.bad 0 (.obj 0) true ∧ ¬ Conforms Ex.files Ex.bad 0 (.obj 0) := by
  refine ⟨returns_of (n := 6) (g := none) rfl, ?_⟩
  have hr := conforms_reading (T := Ex.files) (H := Ex.bad) Ex.files_positive
  intro h
  obtain ⟨es, e, _, _, h⟩ := (hr 0 _ rfl _).1 h
  cases e
  obtain ⟨t, ht, h⟩ := (hr 2 _ rfl _).1 (h _ (.head _)).2
  simp only [List.mem_cons, List.not_mem_nil, or_false] at ht
  rcases ht with rfl | rfl
  · have := (hr 3 _ rfl _).1 h; exact absurd this (by simp [Says, view, Ex.bad, Ex.isInt])
  · obtain ⟨es, e, _, _, h⟩ := (hr 0 _ rfl _).1 h
    cases e
    obtain ⟨t, ht, h⟩ := (hr 2 _ rfl _).1 (h _ (.head _)).2
    simp only [List.mem_cons, List.not_mem_nil, or_false] at ht
    rcases ht with rfl | rfl
    · have := (hr 3 _ rfl _).1 h; exact absurd this (by simp [Says, view, Ex.bad, Ex.isInt])
    · obtain ⟨es, e, _⟩ := (hr 0 _ rfl _).1 h
      cases e

namespace Ex

def isFloat : View → Bool
  | .atom (.float _) => true
  | _ => false
def isBool : View → Bool
  | .atom (.bool _) => true
  | _ => false
def isNil : View → Bool
  | .atom .nil => true
  | _ => false

/-- The type `data` that is built in: internal/alias.go:119-128 -/
def data : Types := [.anyOf [1, 2, 3, 4, 5, 6, 7], .prim isStr, .prim isInt, .prim isFloat, .prim isBool, .prim isNil, .arr 0 0 big, .map 1 0 0 big]

/-- `[[/x/]]` -/
def regexps : Heap := [.arr [.obj 1], .arr [.atom (.regexp [120])]]

/-- `node={value:int,next?:node|nil}` -/
def list : Types := [.struct false [(.str [118], true, 1), (.str [110], false, 2)], .prim isInt, .anyOf [0, 3], .prim isNil]

/-- `{value:1,next:"x"}` in `{value:1,next:...}` -/
def links : Heap := [.map [(.str [118], .atom (.int 1)), (.str [110], .obj 1)], .map [(.str [118], .atom (.str [120]))]]

theorem data_positive : Positive data := by
  intro node hm
  simp only [data, List.mem_cons, List.not_mem_nil, or_false] at hm
  rcases hm with rfl | rfl | rfl | rfl | rfl | rfl | rfl | rfl <;> rfl

theorem list_positive : Positive list := by
  intro node hm
  simp only [list, List.mem_cons, List.not_mem_nil, or_false] at hm
  rcases hm with rfl | rfl | rfl | rfl <;> rfl

theorem data_atom {H : Heap} {v : V} {P : Prop} (h : Conforms data H 0 v) (h6 : Conforms data H 6 v → P) (h7 : Conforms data H 7 v → P)
    (hs : isStr (view H v) = false ∧ isInt (view H v) = false ∧ isFloat (view H v) = false ∧ isBool (view H v) = false ∧ isNil (view H v) = false) : P := by
  have hr := conforms_reading (T := data) (H := H) data_positive
  obtain ⟨t, ht, h⟩ := (hr 0 _ rfl _).1 h
  simp only [List.mem_cons, List.not_mem_nil, or_false] at ht
  rcases ht with rfl | rfl | rfl | rfl | rfl | rfl | rfl
  · have : isStr (view H v) = true := (hr 1 _ rfl _).1 h
    rw [this] at hs; cases hs.1
  · have : isInt (view H v) = true := (hr 2 _ rfl _).1 h
    rw [this] at hs; cases hs.2.1
  · have : isFloat (view H v) = true := (hr 3 _ rfl _).1 h
    rw [this] at hs; cases hs.2.2.1
  · have : isBool (view H v) = true := (hr 4 _ rfl _).1 h
    rw [this] at hs; cases hs.2.2.2.1
  · have : isNil (view H v) = true := (hr 5 _ rfl _).1 h
    rw [this] at hs; cases hs.2.2.2.2
  · exact h6 h
  · exact h7 h

end Ex

/-- **C81** is false: the type `data` that is built in accepts `[[/x/]]`, a regular expression in an array in an array. -/
theorem C81_data_violated : Returns Ex.data Ex.regexps 0 (.obj 0) true ∧ ¬ Conforms Ex.data Ex.regexps 0 (.obj 0) := by
  refine ⟨returns_of (n := 8) (g := none) rfl, ?_⟩
  have hr := conforms_reading (T := Ex.data) (H := Ex.regexps) Ex.data_positive
  intro h
  refine Ex.data_atom h (fun h => ?_) (fun h => ?_) ⟨rfl, rfl, rfl, rfl, rfl⟩
  · obtain ⟨es, e, _, _, h⟩ := (hr 6 _ rfl _).1 h
    cases e
    refine Ex.data_atom (h _ (.head _)) (fun h => ?_) (fun h => ?_) ⟨rfl, rfl, rfl, rfl, rfl⟩
    · obtain ⟨es, e, _, _, h⟩ := (hr 6 _ rfl _).1 h
      cases e
      refine Ex.data_atom (h _ (.head _)) (fun h => ?_) (fun h => ?_) ⟨rfl, rfl, rfl, rfl, rfl⟩
      · obtain ⟨es, e, _⟩ := (hr 6 _ rfl _).1 h; cases e
      · obtain ⟨es, e, _⟩ := (hr 7 _ rfl _).1 h; cases e
    · obtain ⟨es, e, _⟩ := (hr 7 _ rfl _).1 h; cases e
  · obtain ⟨es, e, _⟩ := (hr 7 _ rfl _).1 h; cases e

/-- **C81** is false: of a linked list, `node={value:int,next?:node|nil}`, only the first node is checked. -/
theorem C81_list_violated : Returns Ex.list Ex.links 0 (.obj 0) true ∧ ¬ Conforms Ex.list Ex.links 0 (.obj 0) := by
  refine ⟨returns_of (n := 6) (g := none) rfl, ?_⟩
  have hr := conforms_reading (T := Ex.list) (H := Ex.links) Ex.list_positive
  intro h
  obtain ⟨es, e, h, _⟩ := (hr 0 _ rfl _).1 h
  cases e
  obtain ⟨t, ht, h⟩ := (hr 2 _ rfl _).1 ((h (.str [110], false, 2) (by simp)).1 (.obj 1) rfl)
  simp only [List.mem_cons, List.not_mem_nil, or_false] at ht
  rcases ht with rfl | rfl
  · obtain ⟨es, e, h, _⟩ := (hr 0 _ rfl _).1 h
    cases e
    have := (hr 1 _ rfl _).1 ((h (.str [118], true, 1) (by simp)).1 (.atom (.str [120])) rfl)
    exact absurd this (by simp [Says, view, Ex.isInt])
  · have := (hr 3 _ rfl _).1 h
    exact absurd this (by simp [Says, view, Ex.links, Ex.isNil])

/-- **C81** is false: `x=x|int` never returns on a string, and neither do `x=![]x` and `x=[]sensitive[x]` on values that contain themselves
(`a=[a]`, `a=[sensitive(a)]`). -/
theorem C81_diverges : Diverges [.anyOf [0, 1], .prim Ex.isInt] [] 0 (.atom (.str [])) ∧
    Diverges [.not 1, .arr 0 0 9] [.arr [.obj 0]] 0 (.obj 0) ∧
    Diverges [.arr 1 0 9, .sens 0] [.arr [.obj 1], .sens (.obj 0)] 0 (.obj 0) := by
  refine ⟨fun n => ?_, fun n => ?_, fun n => ?_⟩
  · suffices h : inst [.anyOf [0, 1], .prim Ex.isInt] [] n none 0 (.atom (.str [])) = none by rw [instance?, h]; rfl
    induction n with
    | zero => rfl
    | succ n ih => simp [inst, Node.isDeep, deepInst, anyG, ih]
  · suffices h : ∀ n, inst [.not 1, .arr 0 0 9] [.arr [.obj 0]] n none 0 (.obj 0) = none ∧
        ∀ g, inst [.not 1, .arr 0 0 9] [.arr [.obj 0]] n g 0 (.obj 0) = none by rw [instance?, (h n).1]; rfl
    intro n
    induction n using Nat.strongRecOn with
    | ind n ih =>
      have key : ∀ g, inst [.not 1, .arr 0 0 9] [.arr [.obj 0]] n g 0 (.obj 0) = none := by
        intro g
        match n, ih with
        | 0, _ => rfl
        | 1, _ => rfl
        | n + 2, ih => simp [inst, Node.isDeep, leafInst, deepInst, arrOf, load, isAny, allG, (ih n (by omega)).2]
      exact ⟨key none, key⟩
  · suffices h : ∀ n, inst [.arr 1 0 9, .sens 0] [.arr [.obj 1], .sens (.obj 0)] n none 0 (.obj 0) = none by rw [instance?, h]; rfl
    intro n
    induction n using Nat.strongRecOn with
    | ind n ih =>
      match n, ih with
      | 0, _ => rfl
      | 1, _ => rfl
      | n + 2, ih => simp [inst, Node.isDeep, leafInst, deepInst, arrOf, sensOf, load, isAny, allG, ih n (by omega)]

end Verif.Types.Rec
