import Verif.Reflect.CallLemmas
/-!
# C74: calls of Go functions
-/
set_option autoImplicit false
set_option linter.unusedVariables false
set_option linter.unusedSimpArgs false
namespace Verif.Reflect
open Verif.Value Verif.Types

/-- For the examples: what the model of types leaves open, and `func(string, ...int8) (*int, []string)`, which returns the sum of the numbers
and the string twice -/
def Ex.T0 : Types.Env := ⟨fun _ _ => true, fun _ _ => true, fun _ _ => false, true, fun _ _ => true⟩
def Ex.conv : Env := ⟨fun f => (f >>> 32).setWidth 32, fun f => f.setWidth 64 <<< 32⟩
def Ex.sum : List GV → Int
  | .int _ n :: gs => n + Ex.sum gs
  | _ => 0
def Ex.f : Fn where
  ins := [.string]
  rest := some (.int .int8)
  outs := [.ptr (.int .int), .slice .string]
  body
    | [.string s, .slice _ (some gs)] => some [.ptr (.int .int) (some (.int .int (Ex.sum gs))), .slice .string (some [.string s, .string s])]
    | _ => none

/-- C74: a call runs the body with the arguments put in variables of the types of the parameters, and returns what the body does: nothing else
happens.  It panics if the number of arguments is wrong, if an argument cannot be put in its variable, or if the body does. -/
theorem C74_call (R : Env) (f : Fn) (args : List Val) :
    (∀ gs, Receives R f args gs →
      (f.body gs = none → f.call R args = .error .panic) ∧
      ∀ rs, f.body gs = some rs → ∀ out, f.call R args = .ok out ↔ List.Forall₂ (Result R) rs out) ∧
    ((∀ gs, ¬ Receives R f args gs) → f.call R args = .error .panic) := by
  refine ⟨fun gs h => ⟨fun hb => ?_, fun rs hb out => ?_⟩, fun h => ?_⟩
  · rw [Fn.call, arguments_iff.2 h]; simp only [hb]
  · rw [Fn.call, arguments_iff.2 h]; simp only [hb]; exact convertReturn_ok
  · rw [Fn.call]
    cases ha : f.arguments R args with
    | none => rfl
    | some gs => exact absurd (arguments_iff.1 ha) (h gs)

example : Receives Ex.conv Ex.f [.str [97], .int 5, .int (-7)] [.string [97], .slice (.int .int8) (some [.int .int8 5, .int .int8 (-7)])] ∧
    (∃ rs, Ex.f.body [.string [97], .slice (.int .int8) (some [.int .int8 5, .int .int8 (-7)])] = some rs) ∧
    Ex.f.call Ex.conv [.str [97], .int 5, .int (-7)] = .ok [some (.int (-2)), some (.arr [.str [97], .str [97]])] :=
  ⟨⟨[.str [97]], [.int 5, .int (-7)], _, _, rfl, .cons rfl .nil, .cons rfl (.cons rfl .nil), rfl⟩, ⟨_, rfl⟩, by rfl⟩

/-- C74: what the body gets has the types of the parameters, and there is only one such list of values. -/
theorem C74_arguments (R : Env) (f : Fn) (args : List Val) (gs : List GV) (h : Receives R f args gs) :
    gs.map GV.type = f.params ∧ (∀ g ∈ gs, Typed g) ∧ ∀ gs', Receives R f args gs' → gs' = gs := by
  refine ⟨(receives_typed h).1, (receives_typed h).2, fun gs' h' => ?_⟩
  exact Option.some.inj ((arguments_iff.2 h').symm.trans (arguments_iff.2 h))

example : ∃ gs, Receives Ex.conv Ex.f [.str [97], .int 5] gs :=
  ⟨_, [.str [97]], [.int 5], _, _, rfl, .cons rfl .nil, .cons rfl .nil, rfl⟩

/-- C74: the type of the arguments (`In`) accepts an array exactly if it has a value for each parameter that the type of the parameter accepts
and, for a variadic function, any number of values more that the element type of the last accepts. -/
theorem C74_in (E : Types.Env) (o : Oid) (f : Fn) : ∃ T, f.inType o = some T ∧ ∀ args, Fits (.arr args) →
    (instanceOf E T (.arr args) = true ↔ ∃ vs more, args = vs ++ more ∧ List.Forall₂ Accepts f.ins vs ∧
      match f.rest with
      | none => more = []
      | some e => ∀ v ∈ more, Accepts e v) := by
  obtain ⟨Ts, h1, -⟩ := typesFrom_spec (E := E) (f.ins ++ f.rest.toList) o 0
  refine ⟨_, by rw [Fn.inType, h1]; rfl, fun args hf => ?_⟩
  rw [inType_iff (o := o) (f := f) (by rw [Fn.inType, h1]; rfl) hf]
  cases f.rest with
  | none =>
    constructor
    · intro h; exact ⟨args, [], by simp, h, rfl⟩
    · rintro ⟨vs, more, rfl, h, rfl⟩; simpa using h
  | some e => exact Iff.rfl

example : Fits (.arr [.str [97], .int 5, .int 6]) ∧ List.Forall₂ Accepts Ex.f.ins [.str [97]] ∧ (∀ v ∈ [Val.int 5, .int 6], Accepts (.int .int8) v) ∧
    ¬ Accepts (.int .int8) (.int 200) := by
  refine ⟨by simp [Fits, FitsAll, len, maxInt], .cons ⟨_, rfl⟩ .nil, ?_, ?_⟩ <;> simp [Accepts, IK.min, IK.max, IK.bits, IK.signed, lowOf, highOf]

/-- C74, in part: arguments that the type of the function's arguments (`In`) accepts get to the body.  Left out: parameters with pointers to
pointers or to `interface{}` (`C73_violated`), and arguments with maps whose keys no Go map can have. -/
theorem C74_accepted_partial (E : Types.Env) (R : Env) (o : Oid) (f : Fn) (T : Ty) (args : List Val) (hT : f.inType o = some T) (hd : ∀ t ∈ f.params, Direct t)
    (hs : ∀ v ∈ args, SimpleKeys v) (hf : Fits (.arr args)) (h : instanceOf E T (.arr args) = true) : ∃ gs, Receives R f args gs :=
  accepts_receives hT hf hd hs h

example : ∃ T, Ex.f.inType (.user 0) = some T ∧ (∀ t ∈ Ex.f.params, Direct t) ∧ (∀ v ∈ [Val.str [97], .int 5], SimpleKeys v) ∧
    Fits (.arr [.str [97], .int 5]) ∧ instanceOf Ex.T0 T (.arr [.str [97], .int 5]) = true ∧ instanceOf Ex.T0 T (.arr []) = false ∧
    instanceOf Ex.T0 T (.arr [.str [97], .int 200]) = false :=
  ⟨_, rfl, by simp [Ex.f, Fn.params, Direct], by simp [SimpleKeys], by simp [Fits, FitsAll, len, maxInt], by decide +kernel, by decide +kernel,
    by decide +kernel⟩

/-- C74, in part: and the body can read from them what was given.  Left out are parameters with a `float32`, a `[]byte` or a pointer to a time in
them, and times given to an `interface{}`. -/
theorem C74_kept_partial (E : Types.Env) (R : Env) (o : Oid) (f : Fn) (T : Ty) (args : List Val) (gs : List GV) (hT : f.inType o = some T)
    (he : ∀ t ∈ f.ins ++ f.rest.toList, Exact t) (hi : (∀ t ∈ f.ins ++ f.rest.toList, NoIface t) ∨ ∀ v ∈ args, NoTime v) (hw : ∀ v ∈ args, WF v)
    (hf : Fits (.arr args)) (h : instanceOf E T (.arr args) = true) (hr : Receives R f args gs) : ReadsBack R f gs args :=
  receives_back hT hf he hi hw h hr

example : ∃ T gs, Ex.f.inType (.user 0) = some T ∧ (∀ t ∈ Ex.f.ins ++ Ex.f.rest.toList, Exact t ∧ NoIface t) ∧ (∀ v ∈ [Val.str [97], .int 5], WF v) ∧
    Fits (.arr [.str [97], .int 5]) ∧ instanceOf Ex.T0 T (.arr [.str [97], .int 5]) = true ∧ Receives Ex.conv Ex.f [.str [97], .int 5] gs :=
  ⟨_, _, rfl, by simp [Ex.f, Exact, NoIface], by simp [WF], by simp [Fits, FitsAll, len, maxInt], by decide +kernel,
    [.str [97]], [.int 5], _, _, rfl, .cons rfl .nil, .cons rfl .nil, rfl⟩

/-- C74, in part: the results of a call are an instance of the type of the function's results (`Out`), if what the body returns is what C73 asks
for, and not nil. -/
theorem C74_results_partial (E : Types.Env) (R : Env) (o : Oid) (f : Fn) (T : Ty) (args : List Val) (gs rs : List GV) (out : List (Option Val))
    (hT : f.outType o = some T) (hr : Receives R f args gs) (hb : f.body gs = some rs) (ht : rs.map GV.type = f.outs)
    (hg : ∀ g ∈ rs, Typed g ∧ Described R g ∧ IsNil g = false) (hf : ∀ vs, out = vs.map some → Fits (.arr vs)) (h : f.call R args = .ok out) :
    ∃ vs, out = vs.map some ∧ instanceOf E T (.arr vs) = true ∧ List.Forall₂ (fun g v => fromReflected R g = .ok v) rs vs := by
  rw [((C74_call R f args).1 gs hr).2 rs hb out] at h
  obtain ⟨vs, rfl, h1, h2⟩ := results_accepted h hg
  refine ⟨vs, rfl, ?_, h2⟩
  have hf := hf vs rfl
  rw [ht] at h1
  have hi := @inType_iff E o ⟨f.outs, none, [], fun _ => none⟩ T vs (by rw [Fn.inType]; simpa [Fn.outType] using hT) hf
  exact hi.2 h1

example : ∃ T gs rs out, Ex.f.outType (.user 0) = some T ∧ Receives Ex.conv Ex.f [.str [97], .int 5] gs ∧ Ex.f.body gs = some rs ∧
    rs.map GV.type = Ex.f.outs ∧ (∀ g ∈ rs, Typed g ∧ Described Ex.conv g ∧ IsNil g = false) ∧ Ex.f.call Ex.conv [.str [97], .int 5] = .ok out := by
  refine ⟨_, _, _, [some (.int 5), some (.arr [.str [97], .str [97]])], rfl,
    ⟨[.str [97]], [.int 5], [.string [97]], [.int .int8 5], rfl, .cons rfl .nil, .cons rfl .nil, rfl⟩, rfl, rfl, ?_, by rfl⟩
  simp [Typed, TypedAll, Described, DescribedAll, IsNil, GV.type, Ex.sum, IK.min, IK.max, IK.bits, IK.signed]

/-- C74: a result that is nil in Go is returned as Go's nil, also a nil pointer, slice or map; but a `dgo` nil as that. -/
theorem C74_nil (R : Env) (g : GV) (v : Val) (h : fromReflected R g = .ok v) : ∃ r,
    (⟨[], none, [g.type], fun _ => some [g]⟩ : Fn).call R [] = .ok [r] ∧ (IsNil g = true ∧ ¬ IsValue g → r = none) ∧
      (IsNil g = false ∨ IsValue g → r = some v) := by
  have hc := ((C74_call R ⟨[], none, [g.type], fun _ => some [g]⟩ []).1 [] (by rw [Receives]; exact .nil)).2 [g] rfl
  have hn := read_nil h
  by_cases h1 : IsNil g = true ∧ ¬ IsValue g
  · refine ⟨none, (hc _).2 (.cons (.inl ⟨rfl, h1.1, h1.2, by rw [hn.1 h1.1] at h; exact h⟩) .nil), fun _ => rfl, ?_⟩
    rintro (h2 | h2)
    · simp [h1.1] at h2
    · exact absurd h2 h1.2
  · exact ⟨some v, (hc _).2 (.cons (.inr ⟨v, rfl, h, fun h2 => Classical.byContradiction fun h3 => h1 ⟨h2, h3⟩⟩) .nil), fun h2 => absurd h2 h1, fun _ => rfl⟩

example : (⟨[], none, [.slice .bool, .value .any], fun _ => some [.slice .bool none, .value .any (some .nil)]⟩ : Fn).call Ex.conv [] = .ok [none, some .nil] := by rfl

/-- C74, in part: the identity function returns its argument. -/
theorem C74_identity_partial (E : Types.Env) (R : Env) (o : Oid) (t : GT) (T : Ty) (v : Val) (hT : typeFromReflected o t = some T) (hd : Direct t)
    (he : Exact t) (hi : NoIface t ∨ NoTime v) (hs : SimpleKeys v) (hf : Fits v) (hw : WF v) (hn : v ≠ .nil) (h : instanceOf E T v = true) :
    (⟨[t], none, [t], some⟩ : Fn).call R [v] = .ok [some v] := by
  obtain ⟨T', h1, h2, -, -, h5⟩ := from_spec (E := E) t o
  cases hT.symm.trans h1
  rw [instanceOf_has h2, h5 v hf] at h
  obtain ⟨g, hg⟩ := accepts_goes (R := R) t v h hd hs
  have hv := round v t g hg (accepts_survives t v h he hi) hw
  rw [((C74_call R ⟨[t], none, [t], some⟩ [v]).1 [g] (by rw [Receives]; exact .cons hg .nil)).2 [g] rfl]
  refine .cons (.inr ⟨v, rfl, hv, fun hx => absurd ((read_nil hv).1 hx) hn⟩) .nil

example : ∃ T, typeFromReflected (.user 0) (.map .string (.slice .time)) = some T ∧ Direct (.map .string (.slice .time)) ∧
    Exact (.map .string (.slice .time)) ∧ NoIface (.map .string (.slice .time)) ∧
    instanceOf Ex.T0 T (.map [(.str [97], .arr [.time 5])]) = true :=
  ⟨_, rfl, by simp [Direct, GT.comparable], by simp [Exact], by simp [NoIface], by decide +kernel⟩

/-- C74, in part: the instances of a function type that is not variadic have the number of parameters and results that it says. -/
theorem C74_arity_partial (E : Types.Env) (ins outs ins' outs' : List Ty) (var' : Bool) (h : functionTypeAssignable E ins false outs ins' var' outs' = true) :
    var' = false ∧ ins'.length = ins.length ∧ outs'.length = outs.length := by
  have key : ∀ {n : Nat} {ts us : List Ty} {g : G}, tupleTuple (asg E n) none ts false us false = some (true, g) → us.length = ts.length := by
    intro n ts us g h
    unfold tupleTuple at h
    simp only [Bool.false_eq_true, if_false] at h
    split at h
    · cases h
    · rename_i hc
      simp only [len] at hc
      omega
  unfold functionTypeAssignable at h
  simp only [Bool.and_eq_true, beq_iff_eq] at h
  obtain ⟨rfl, h⟩ := h
  refine ⟨rfl, ?_⟩
  split at h
  · rename_i h1
    split at h
    · rename_i h2
      exact ⟨key h1, key h2⟩
    · cases h
  · cases h

example : functionTypeAssignable Ex.T0 [.strT, .any] false [.any] [.strT, .intT] false [.intT] = true := by decide +kernel

/-- C74 does not hold for the instances of a function type: a function type is assignable from one that accepts less, so `func(any) string` has
each `func(string) string` as an instance, its arguments can be the number 5, and the call panics.  And a variadic one is assignable from one
that needs more arguments: `func(...string)` has each `func(string, ...string)` as an instance, and to call that without arguments panics. -/
theorem C74_covariant_violated (E : Types.Env) (R : Env) (body : List GV → Option (List GV)) :
    (∃ Ts, typesFrom (.user 1) 0 [GT.string] = some Ts ∧ functionTypeAssignable E [.any] false [.strT] Ts false Ts = true ∧
      instanceOf E (.tuple (.user 0) [.any] false) (.arr [.int 5]) = true ∧
      (⟨[.string], none, [.string], body⟩ : Fn).call R [.int 5] = .error .panic) ∧
    ∃ Ts, typesFrom (.user 1) 0 [GT.string, .string] = some Ts ∧ functionTypeAssignable E [.strT] true [] Ts true [] = true ∧
      instanceOf E (.tuple (.user 0) [.strT] true) (.arr []) = true ∧
      (⟨[.string], some .string, [], body⟩ : Fn).call R [] = .error .panic :=
  ⟨⟨[.strT], rfl, rfl, rfl, rfl⟩, [.strT, .strT], rfl, rfl, rfl, rfl⟩

end Verif.Reflect
