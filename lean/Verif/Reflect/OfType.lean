import Verif.Reflect.Model
import Verif.Types.Access
/-!
# The Go type of a `dgo` type: `ReflectType`
-/
set_option autoImplicit false
set_option linter.unusedVariables false
namespace Verif.Reflect
open Verif.Value Verif.Types

/-- What `ReflectType` does: `none` is a panic, `some none` is Go's nil, which is no type. -/
abbrev RT := Option (Option GT)

def RT.of (t : GT) : RT := some (some t)

/-- `commonReflectTo`: internal/ternary.go:503-520, with the results of the calls of `ReflectType`; `prev` is the type so far.  A method of a nil
type and `AssignableTo(nil)` panic. -/
def commonT : Option GT → List RT → RT
  | prev, [] => some prev
  | _, none :: _ => none
  | none, some rt :: r => commonT rt r
  | some _, some none :: _ => none
  | some p, some (some t) :: r =>
    if t.assignableTo p then commonT (some p) r else if p.assignableTo t then commonT (some t) r else .of .iface

/-- `reflect.SliceOf` -/
def sliceOfT : RT → RT
  | some (some t) => .of (.slice t)
  | _ => none

/-- `reflect.MapOf` -/
def mapOfT : RT → RT → RT
  | some (some k), some (some v) => (mapOf k v).map some
  | _, _ => none

/-- `v.Type().ReflectType()` -/
def valRT (v : Val) : RT := (rtype v).map some

/-- `Unique` of the element types of a tuple type, each with its Go type: internal/array.go:1384-1412; `u` are the ones that are kept, last
first. -/
def uniqueRT (E : Types.Env) (u : List (Ty × RT)) : List (Ty × RT) → List (Ty × RT)
  | [] => u.reverse
  | t :: ts => if u.any fun x => E.slot t.1 x.1 && Ty.equals t.1 x.1 then uniqueRT E u ts else uniqueRT E (t :: u) ts

mutual
/-- `ReflectType`: any.go:34-36, nil.go:74-76, not.go:86-88, boolean.go:69-71 and 101-103, integer.go:145-147, 185-187 and 242-244, float.go:129-131,
165-167 and 219-221, string.go:240-242, 272-274, 414-416 and 518-520, binary.go:130-132 and 166-168, regexp.go:58-60 and 82-84, time.go:55-57 and
83-85, sensitive.go:75-77, meta.go:109-111, array.go:166-168, 263-265, 327-329 and 635-637, map.go:67-69, 1108-1110, 1183-1185 and 1265-1267,
mapstruct.go:323-325, ternary.go:124-126, 228-230, 336-338 and 459-461; with `tupleElementType` (array.go:486-500), and `KeyType` and `ValueType` of
struct types (mapstruct.go:285-294 and 443-452). -/
def reflectType (E : Types.Env) : Ty → RT
  | .any | .nilT | .not _ => .of .iface
  | .boolT => .of .bool
  | .intT | .intRange .. => .of (.int .int64)
  | .floatT | .floatRange .. => .of .float64
  | .strT | .sizedStr .. | .ciStr _ | .pattern _ => .of .string
  | .bin .. => .of (.slice (.int .uint8))
  | .regexpT => .of (.ptr .regexp)
  | .timeT => .of .time
  | .arrT => .of (.slice .iface)
  | .mapT => .of (.map .iface .iface)
  | .exact v | .exactD _ v => valRT v
  | .sens .. => .of (.value .sens)
  | .metaT _ | .metaMeta => .of (.value .type)
  | .sizedArr _ e _ _ => sliceOfT (reflectType E e)
  | .tuple _ ts _ => sliceOfT (if ts.isEmpty then .of .iface else commonT none ((uniqueRT E [] (reflectTypes E ts)).map (·.2)))
  | .sizedMap _ k v _ _ => mapOfT (reflectType E k) (reflectType E v)
  | .struct _ _ fs =>
    if fs.isEmpty then mapOfT (.of .iface) (.of .iface)
    else mapOfT (commonT none (fs.map fun f => valRT f.1)) (commonT none (reflectFields E fs))
  | .allOf _ ts | .anyOf _ ts | .oneOf _ ts => commonT none ((reflectTypes E ts).map (·.2))
  | .allOfVal _ vs => commonT none (vs.map valRT)

def reflectTypes (E : Types.Env) : List Ty → List (Ty × RT)
  | [] => []
  | t :: ts => (t, reflectType E t) :: reflectTypes E ts

def reflectFields (E : Types.Env) : List (Val × Bool × Ty) → List RT
  | [] => []
  | (_, _, t) :: fs => reflectType E t :: reflectFields E fs
end

end Verif.Reflect
