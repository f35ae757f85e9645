import Verif.Types.Model
/-!
# Types: Equals and Assignable

Simplifications, for the whole file, besides those of `Verif.Types.Model`:
* `Assignable` as a method of an exact array or map passes an inner object (`*deepExactType`) on as the receiver; here it is the type itself.
  That makes no difference: the two are only compared with the addresses of other types.
* objects that are made along the way (the element type of a tuple, key and value types of an exact map) get an identity derived from the
  type they are made from, where the code makes a new one each time.  Within one call they are not made twice from the same type.
-/
set_option autoImplicit false
namespace Verif.Types
open Verif.Value

/-- The identity of a type that implements `dgo.DeepAssignable` and `deepEqual`. -/
def Ty.deep? : Ty → Option Oid
  | .exactD o _ | .sizedArr o .. | .tuple o .. | .sizedMap o .. | .struct o .. | .allOf o _ | .allOfVal o _ | .anyOf o _
  | .oneOf o _ | .sens o _ => some o
  | _ => none

/-! ## Equals -/

/-- The first element that passes is taken out. -/
def takeFirst {β : Type} (p : β → Bool) : List β → Option (List β)
  | [] => none
  | b :: bs => if p b then some bs else (takeFirst p bs).map (b :: ·)

/-- The loops of `deepContainsAll` for lists of one length: internal/array.go:970-995. -/
def matchAll {α β : Type} (p : β → α → Bool) : List α → List β → Bool
  | [], _ => true
  | a :: as, bs =>
    match takeFirst (fun b => p b a) bs with
    | none => false
    | some bs => matchAll p as bs

/-- `sameValues`: internal/ternary.go:530-538, the elements of `b` being types already. -/
def sameValues {α β : Type} (p : β → α → Bool) (as : List α) (bs : List β) : Bool :=
  as.length == bs.length && matchAll p as bs

/-- `sliceEquals`: internal/compare.go:134-145. -/
def zipAll {α β : Type} (p : α → β → Bool) : List α → List β → Bool
  | [], [] => true
  | a :: as, b :: bs => p a b && zipAll p as bs
  | _, _ => false

/-- The `Equals` methods of types that do not implement `deepEqual`. -/
def leafEq (rec : Ty → Ty → Bool) : Ty → Ty → Bool
  /- any.go:21-23, nil.go:62-64, boolean.go:42-44, integer.go:205-208, float.go:184-187, string.go:206-208, regexp.go:38-40, time.go:35-37,
  array.go:141-143, map.go:1154-1156 -/
  | .any, .any | .nilT, .nilT | .boolT, .boolT | .intT, .intT | .floatT, .floatT | .strT, .strT | .regexpT, .regexpT | .timeT, .timeT
  | .arrT, .arrT | .mapT, .mapT => true
  /- exact.go:19-24 -/
  | .exact v, .exact w => eq v w
  | .ciStr s, .ciStr s' => s == s'
  /- integer.go:91-96 -/
  | .intRange a b i, .intRange a' b' i' => a == a' && b == b' && i == i'
  /- float.go:73-78 -/
  | .floatRange a b i, .floatRange a' b' i' => Value.F64.eq a a' && Value.F64.eq b b' && i == i'
  /- string.go:473-478 -/
  | .sizedStr a b, .sizedStr a' b' => a == a' && b == b'
  /- string.go:373-378 -/
  | .pattern r, .pattern r' => r == r'
  /- binary.go:83-88 -/
  | .bin a b, .bin a' b' => a == a' && b == b'
  /- not.go:25-30 -/
  | .not t, .not t' => rec t t'
  /- meta.go:46-54 -/
  | .metaT t, .metaT t' => rec t t'
  | .metaMeta, .metaMeta => true
  | _, _ => false

/-- The types of the values of an exact array -/
def elemTypesOf (o : Oid) (vs : List Val) : List Ty := typesOf (.part o 0) vs

/-- The `deepEqual` methods of types. -/
def deepEq (rec : Ty → Ty → Bool) : Ty → Ty → Bool
  /- exact.go:62-67 -/
  | .exactD _ v, .exactD _ w => eq v w
  /- array.go:208-213 -/
  | .sizedArr _ e lo hi, .sizedArr _ e' lo' hi' => lo == lo' && hi == hi' && rec e e'
  /- array.go:510-515 and 517-530 -/
  | .tuple _ ts var, .tuple _ us var' => var == var' && zipAll rec ts us
  /- array.go:517-530 -/
  | .tuple _ ts var, .exactD o (.arr vs) => !var && zipAll rec ts (elemTypesOf o vs)
  /- map.go:1039-1044 -/
  | .sizedMap _ k v lo hi, .sizedMap _ k' v' lo' hi' => lo == lo' && hi == hi' && rec k k' && rec v v'
  /- mapstruct.go:221-229 -/
  | .struct _ add fs, .struct _ add' fs' =>
    add == add' && zipAll (fun f f' => f.2.1 == f'.2.1) fs fs' && zipAll (fun f f' => eq f.1 f'.1) fs fs' &&
      zipAll (fun f f' => rec f.2.2 f'.2.2) fs fs'
  /- ternary.go:80-88 -/
  | .allOf _ ts, .allOf _ us => sameValues rec ts us
  | .allOf _ ts, .allOfVal o vs => sameValues rec ts (typesOf o vs)
  /- ternary.go:188-196 -/
  | .allOfVal _ vs, .allOfVal _ ws => sameValues eq vs ws
  | .allOfVal o vs, .allOf _ us => sameValues rec us (typesOf o vs)
  /- ternary.go:299-304 -/
  | .anyOf _ ts, .anyOf _ us => sameValues rec ts us
  /- ternary.go:417-422 -/
  | .oneOf _ ts, .oneOf _ us => sameValues rec ts us
  /- sensitive.go:51-56 -/
  | .sens _ t, .sens _ u => rec t u
  | _, _ => false

/-- `equals`: internal/compare.go:111-132, and the `Equals` methods. -/
def tyEq : Nat → List Oid → Ty → Ty → Bool
  | 0, _, _, _ => false
  | n + 1, seen, a, b =>
    match a.deep? with
    | none => leafEq (tyEq n []) a b
    | some o =>
      if b.deep? = some o then true
      else if o ∈ seen then true
      else deepEq (tyEq n (o :: seen)) a b

/-- `a.Equals(b)`, with enough fuel. -/
def Ty.equals (a b : Ty) : Bool := tyEq (a.depth + b.depth + 1) [] a b

/-! ## Assignable -/

/-- The operands of a type that implements `dgo.ReverseAssignable`, and whether there have to be any: `AssignableTo`, ternary.go:65-74, 169-178,
284-293, 402-411. -/
def Ty.operands? : Ty → Option (List Ty × Bool)
  | .allOf _ ts => some (ts, false)
  | .allOfVal o vs => some (typesOf o vs, false)
  | .anyOf _ ts => some (ts, true)
  | .oneOf _ ts => some (ts, true)
  | _ => none

/-- `CheckAssignableTo(guard, b, a)`: internal/type.go:15-23.  The swapped guard is a new object. -/
def checkTo (rec : G → Ty → Ty → Check) (g : G) (a b : Ty) : Check :=
  match b.operands? with
  | none => some (false, g)
  | some (ts, ne) => (allG (fun g t => rec g a t) (g.map Guard.swap) ts).map fun r => (r.1 && !(ne && ts.isEmpty), g)

def allO {α : Type} (f : α → Option Bool) : List α → Option Bool
  | [] => some true
  | a :: as =>
    match f a with
    | none => none
    | some false => some false
    | some true => allO f as

def anyO {α : Type} (f : α → Option Bool) : List α → Option Bool
  | [] => some false
  | a :: as =>
    match f a with
    | none => none
    | some true => some true
    | some false => anyO f as

def oneO {α : Type} (f : α → Option Bool) (found : Bool) : List α → Option Bool
  | [] => some found
  | a :: as =>
    match f a with
    | none => none
    | some true => if found then some false else oneO f true as
    | some false => oneO f found as

/-- The cases of the `Assignable` methods that take no guard, before `CheckAssignableTo(nil, other, t)`; `none`: no case. -/
def leafCase (E : Env) (eqT : Ty → Ty → Bool) : Ty → Ty → Option Bool
  /- any.go:17-19 -/
  | .any, _ => some true
  /- nil.go:57-60 -/
  | .nilT, .nilT => some true
  /- boolean.go:37-40 -/
  | .boolT, .boolT => some true
  | .boolT, .exact (.bool _) => some true
  /- integer.go:197-203 -/
  | .intT, .intT | .intT, .exact (.int _) | .intT, .intRange .. => some true
  /- float.go:177-183: no reverse check -/
  | .floatT, .floatT | .floatT, .exact (.float _) | .floatT, .floatRange .. => some true
  | .floatT, _ => some false
  /- string.go:198-204 -/
  | .strT, .strT | .strT, .exact (.str _) | .strT, .ciStr _ | .strT, .sizedStr .. | .strT, .pattern _ => some true
  /- regexp.go:30-36 -/
  | .regexpT, .regexpT | .regexpT, .exact (.regexp _) => some true
  /- time.go:27-33 -/
  | .timeT, .timeT | .timeT, .exact (.time _) => some true
  /- array.go:129-135 -/
  | .arrT, .arrT | .arrT, .tuple .. | .arrT, .exactD _ (.arr _) | .arrT, .sizedArr .. => some true
  /- map.go:1146-1152 -/
  | .mapT, .mapT | .mapT, .sizedMap .. | .mapT, .exactD _ (.map _) => some true
  /- exact.go:15-17 -/
  | .exact v, .exact w => if eq v w then some true else none
  /- integer.go:70-88 -/
  | .intRange min max incl, .exact (.int i) => some (min.sle i && (if incl then i.sle max else i.slt max))
  | .intRange min max incl, .intRange min' max' incl' =>
    some (if min'.slt min then false
      else (if incl' then max' else max' - 1).sle (if incl then max else max - 1))
  /- float.go:57-71 -/
  | .floatRange min max incl, .exact (.float f) => some (F64.le min f && (if incl then F64.le f max else Value.F64.lt f max))
  | .floatRange min max incl, .floatRange min' max' incl' =>
    some (if Value.F64.lt min' min then false
      else if incl || incl == incl' then F64.le max' max else Value.F64.lt max' max)
  /- string.go:459-471 -/
  | .sizedStr min max, .exact (.str s) => some (decide (min ≤ len s) && decide (len s ≤ max))
  | .sizedStr min max, .ciStr s => some (decide (min ≤ len s) && decide (len s ≤ max))
  | .sizedStr min max, .sizedStr min' max' => some (decide (min ≤ min') && decide (max' ≤ max))
  /- string.go:302-307 -/
  | .ciStr s, .exact (.str s') => some (E.fold s s')
  | .ciStr s, .ciStr s' => if s == s' then some true else none
  /- string.go:363-371 -/
  | .pattern rx, .exact (.str s) => some (E.rx rx s)
  | .pattern rx, .pattern rx' => some (rx == rx')
  /- binary.go:76-81 and 154-160 -/
  | .bin min max, .bin min' max' => some (decide (min ≤ min') && decide (max' ≤ max))
  | .bin min max, .exact (.bin b) => some (decide (min ≤ len b) && decide (len b ≤ max))
  /- meta.go:31-40 -/
  | .metaT t, .metaT u => some (eqT t u)
  | .metaT _, .metaMeta => some false
  | .metaMeta, .metaMeta => some true
  | .metaMeta, .metaT _ => some false
  | _, _ => none

/-- `notType.Assignable`: internal/not.go:36-75; `t` is the negated type. -/
def notAsg (rec : Ty → Ty → Option Bool) (t : Ty) : Ty → Option Bool
  | .not u => rec u t
  | .anyOf _ us => anyO (fun u => rec (.not t) u) us
  | .allOf _ us => allO (fun u => rec (.not t) u) us
  | .oneOf _ us => oneO (fun u => rec (.not t) u) false us
  | u => (rec t u).map (!·)

/-- The `Assignable` methods that take no guard.  `rec` is `Assignable` without guard. -/
def leafAsg (E : Env) (eqT : Ty → Ty → Bool) (rec : Ty → Ty → Option Bool) (a b : Ty) : Option Bool :=
  match a with
  | .not t => notAsg rec t b
  | _ =>
    match leafCase E eqT a b with
    | some r => some r
    | none =>
      match b.operands? with
      | none => some false
      | some (ts, ne) => (allO (fun t => rec a t) ts).map fun r => r && !(ne && ts.isEmpty)

/-- `Unique` of types: internal/array.go:1384-1412; `u` are the ones that are kept, last first. -/
def uniqueTy (E : Env) (eqT : Ty → Ty → Bool) (u : List Ty) : List Ty → List Ty
  | [] => u.reverse
  | t :: ts => if u.any fun x => E.slot t x && eqT t x then uniqueTy E eqT u ts else uniqueTy E eqT (t :: u) ts

/-- Minimal size, maximal size and element type of types that implement `dgo.ArrayType`: sizedArrayType (array.go:200-202, 245-251),
tupleType (482-500, 607-633), exactArrayType (287-296, 315-321), defaultArrayType (137-139, 154-160). -/
def Ty.arrayType? (E : Env) (eqT : Ty → Ty → Bool) : Ty → Option (Int × Int × Ty)
  | .arrT => some (0, maxInt, .any)
  | .sizedArr _ e lo hi => some (lo, hi, e)
  | .tuple o ts var =>
    some (if var then len ts - 1 else len ts, if var then maxInt else len ts,
      match ts with
      | [] => .any
      | [t] => t
      | _ => match uniqueTy E eqT [] ts with
        | [t] => t
        | us => .allOf (.part o 0) us)
  | .exactD o (.arr vs) =>
    some (len vs, len vs,
      match vs with
      | [] => .any
      | [v] => typeOf (.part o 0) v
      | _ => .allOfVal (.part o 0) vs)
  | _ => none

/-- The types of the keys of a struct type -/
def fieldKeys (o : Oid) : List (Val × Bool × Ty) → List Ty
  | [] => []
  | (k, _, _) :: r => typeOf (.part o r.length) k :: fieldKeys o r

/-- Minimal size, maximal size, key type and value type of types that implement `dgo.MapType`: defaultMapType (map.go:1167-1177, 1199-1201),
sizedMapType (1092-1102, 1135-1137), exactMapType (1241-1259, 1291-1297), structType (mapstruct.go:285-317 and 443-452). -/
def Ty.mapType? : Ty → Option (Int × Int × Ty × Ty)
  | .mapT => some (0, maxInt, .any, .any)
  | .sizedMap _ k v lo hi => some (lo, hi, k, v)
  | .exactD o (.map es) =>
    some (len es, len es, if es.isEmpty then .any else .allOfVal (.part o 0) (es.map (·.1)),
      if es.isEmpty then .any else .allOfVal (.part o 1) (es.map (·.2)))
  | .struct o add fs =>
    some (len (fs.filter (·.2.1)), if fs.isEmpty || add then maxInt else len fs,
      match fs with
      | [] => .any
      | [f] => typeOf (.part (.part o 0) 0) f.1
      | _ => .allOf (.part o 0) (fieldKeys (.part o 0) fs),
      match fs with
      | [] => .any
      | [f] => f.2.2
      | _ => .allOf (.part o 1) (fs.map (·.2.2)))
  | _ => none

/-- `t.Element(i)`, and the last type for what a variadic tuple has beyond: array.go:413-437; `none` is Go's nil. -/
def elemAt (ts : List Ty) (variadic : Bool) (i : Nat) : Option Ty :=
  let tn := if variadic then ts.length - 1 else ts.length
  if i < tn then ts[i]? else if variadic then ts[tn]? else none

/-- `tupleAssignableTuple`: internal/array.go:407-442. -/
def tupleTuple (rec : G → Ty → Ty → Check) (g : G) (ts : List Ty) (var : Bool) (us : List Ty) (var' : Bool) : Check :=
  let tn := if var then ts.length - 1 else ts.length
  let on := if var' then us.length - 1 else us.length
  if tn > on ∨ (if var' then maxInt else len us) > (if var then maxInt else len ts) then some (false, g)
  else
    allG (fun g i =>
      match elemAt ts var i, elemAt us var' i with
      | some t, some u => rec g t u
      | _, _ => some (false, g)) g (List.range (max tn on))

/-- `tupleAssignableArray`: internal/array.go:447-462. -/
def tupleArray (rec : G → Ty → Ty → Check) (g : G) (ts : List Ty) (var : Bool) (e : Ty) (lo hi : Int) : Check :=
  if (if var then len ts - 1 else len ts) ≤ lo ∧ hi ≤ (if var then maxInt else len ts) then allG (fun g t => rec g t e) g ts
  else some (false, g)

/-- The loop of `structType.DeepAssignable`: internal/mapstruct.go:180-198; as `structLoop`. -/
def structAsg (rec : G → Ty → Ty → Check) (additional : Bool) (us : List (Val × Bool × Ty)) :
    G → Nat → List (Val × Bool × Ty) → Option (Option Nat × G)
  | g, oc, [] => some (some oc, g)
  | g, oc, (k, rq, t) :: r =>
    match us.find? fun u => eq k u.1 with
    | some (_, rq', u) =>
      if rq && !rq' then some (none, g)
      else
        match rec g t u with
        | none => none
        | some (false, g') => some (none, g')
        | some (true, g') => structAsg rec additional us g' (oc + 1) r
    | none => if rq || additional then some (none, g) else structAsg rec additional us g oc r

/-- The first type that has the mark `m` and passes is marked: ternary.go:552-563. -/
def markFirst (f : G → Ty → Check) (m : Bool) : G → List (Ty × Bool) → Option (Option (List (Ty × Bool)) × G)
  | g, [] => some (none, g)
  | g, (t, b) :: r =>
    if b = m then
      match f g t with
      | none => none
      | some (true, g') => some (some ((t, true) :: r), g')
      | some (false, g') => (markFirst f m g' r).map fun x => (x.1.map ((t, b) :: ·), x.2)
    else (markFirst f m g r).map fun x => (x.1.map ((t, b) :: ·), x.2)

/-- The first loop of `lessRestrictive`: ternary.go:549-567. -/
def lessLoop (rec : G → Ty → Ty → Check) : G → List Ty → List (Ty × Bool) → Option (Option (List (Ty × Bool)) × G)
  | g, [], bs => some (some bs, g)
  | g, a :: as, bs =>
    match markFirst (fun g b => rec g a b) false g bs with
    | none => none
    | some (some bs, g) => lessLoop rec g as bs
    | some (none, g) =>
      match markFirst (fun g b => rec g a b) true g bs with
      | none => none
      | some (some bs, g) => lessLoop rec g as bs
      | some (none, g) => some (none, g)

/-- `lessRestrictive`: internal/ternary.go:540-585. -/
def lessRestrictive (rec : G → Ty → Ty → Check) (g : G) (as bs : List Ty) : Check :=
  match lessLoop rec g as (bs.map fun b => (b, false)) with
  | none => none
  | some (none, g) => some (false, g)
  | some (some bs, g) =>
    (anyG (fun g b => anyG (fun g a => rec g b a) g as) (g.map Guard.swap) ((bs.filter fun b => !b.2).map (·.1))).map
      fun r => (!r.1, g)

/-- The `DeepAssignable` methods.  `rec` is `Assignable`, `ins` is `Instance`. -/
def deepAsg (E : Env) (eqT : Ty → Ty → Bool) (rec : G → Ty → Ty → Check) (ins : G → Ty → Oid × Val → Check) (g : G) (a b : Ty) : Check :=
  match a with
  /- exact.go:58-60 -/
  | .exactD _ v =>
    match b with
    | .exactD _ w => some (eq v w, g)
    | _ => checkTo rec g a b
  /- array.go:190-198 -/
  | .sizedArr _ e lo hi =>
    match b with
    | .arrT => some (false, g)
    | _ =>
      match b.arrayType? E eqT with
      | some (lo', hi', e') =>
        if lo ≤ lo' ∧ hi' ≤ hi then (rec none e e').map fun r => (r.1, g) else some (false, g)
      | none => checkTo rec g a b
  /- array.go:403-405 and 464-476 -/
  | .tuple _ ts var =>
    match b with
    | .arrT => some (false, g)
    | .exactD o (.arr vs) => ins g a (o, .arr vs)
    | .tuple _ us var' => tupleTuple rec g ts var us var'
    | .sizedArr _ e lo hi => tupleArray rec g ts var e lo hi
    | _ => checkTo rec g a b
  /- map.go:1027-1033 -/
  | .sizedMap _ k v lo hi =>
    match b.mapType? with
    | some (lo', hi', k', v') =>
      if lo ≤ lo' ∧ hi' ≤ hi then andG (rec g k k') fun g => rec g v v' else some (false, g)
    | none => checkTo rec g a b
  /- mapstruct.go:168-205 -/
  | .struct _ add fs =>
    match b with
    | .struct _ add' us =>
      match structAsg rec add' us g 0 fs with
      | none => none
      | some (none, g) => some (false, g)
      | some (some oc, g) => some (add || oc == us.length, g)
    | .exactD o (.map es) => ins g a (o, .map es)
    | _ => checkTo rec g a b
  /- ternary.go:49-63 -/
  | .allOf _ ts =>
    match b with
    | .allOf _ us => lessRestrictive rec g ts us
    | .allOfVal o vs => lessRestrictive rec g ts (typesOf o vs)
    | _ =>
      match allG (fun g t => rec g t b) g ts with
      | none => none
      | some (true, g) => some (true, g)
      | some (false, g) => checkTo rec g a b
  /- ternary.go:151-167 -/
  | .allOfVal o vs =>
    match b with
    | .allOfVal _ ws => some (decide (ws.length ≤ vs.length) && matchAll eq (vs.take ws.length) ws, g)
    | .allOf _ us => lessRestrictive rec g (typesOf o vs) us
    | _ => allG (fun g t => rec g t b) g (typesOf o vs)
  /- ternary.go:271-283 -/
  | .anyOf _ ts =>
    if ts.isEmpty then some (match b with | .anyOf .. => true | _ => false, g)
    else
      match anyG (fun g t => rec g t b) g ts with
      | none => none
      | some (true, g) => some (true, g)
      | some (false, g) => checkTo rec g a b
  /- ternary.go:380-400 -/
  | .oneOf _ ts =>
    if ts.isEmpty then some (match b with | .oneOf .. => true | _ => false, g)
    else
      match oneG (fun g t => rec g t b) false g ts with
      | none => none
      | some (true, g) => some (true, g)
      | some (false, g) => checkTo rec g a b
  /- sensitive.go:40-45 -/
  | .sens _ t =>
    match b with
    | .sens _ u => rec g t u
    | _ => checkTo rec g a b
  | _ => some (false, g)

/-- `Assignable`: internal/compare.go:51-73.  The test `a == b` at its start is here that for equal identities; two types without parts that are the
same object are equal and so assignable (`C27_reflexive_partial`), except when they have a NaN in them, where the test is left out. -/
def asg (E : Env) : Nat → G → Ty → Ty → Check
  | 0, _, _, _ => none
  | n + 1, g, a, b =>
    match a.deep? with
    | none => (leafAsg E (tyEq n []) (fun a b => (asg E n none a b).map (·.1)) a b).map fun r => (r, g)
    | some o =>
      match b.deep? with
      | none => deepAsg E (tyEq n []) (asg E n) (inst E n) g a b
      | some o' =>
        if o = o' then some (true, g)
        else
          match g with
          | none =>
            (deepAsg E (tyEq n []) (asg E n) (inst E n)
              (some { aSeen := [.ty o], bSeen := [.ty o'], seenInA := false, seenInB := false }) a b).map fun r => (r.1, none)
          | some s =>
            let sc := s.append E (.ty o) (.ty o')
            if sc.2.hit E then some (true, some sc.1)
            else (deepAsg E (tyEq n []) (asg E n) (inst E n) (some sc.2) a b).map fun r => (r.1, some sc.1)

/-- `a.Assignable(b)`, with enough fuel. -/
def assignable (E : Env) (a b : Ty) : Bool :=
  match asg E (a.depth + b.depth + 3) none a b with
  | some (r, _) => r
  | none => false

end Verif.Types
