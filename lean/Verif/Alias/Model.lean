import Verif.HMap.Spec
/-!
# The two directions of an alias map

`aliasMap` of internal/alias.go: names of types, and types with their names.  Both are maps; what their `Put` and `Get` do is
`Verif/HMap/Spec.lean`, which `C01_map_is_ordered_dictionary` shows to be what the code of the maps does.  Names and types are keys of maps of
any kind (`KeyOps`: `Equals`, `HashCode` and a frozen copy).
-/
set_option autoImplicit false
namespace Verif.Alias
open Verif.HMap Verif.HMap.Spec

variable {N T : Type} [KeyOps N] [KeyOps T]

/-- `aliasMap`: alias.go:15-18. -/
structure AMap (N T : Type) where
  namedTypes : List (N × T)
  typeNames : List (T × N)

/-- `&aliasMap{}` -/
def AMap.empty : AMap N T := ⟨[], []⟩

/-- `GetName`: alias.go:183-188. -/
def AMap.getName (a : AMap N T) (t : T) : Option N := lookup t a.typeNames

/-- `GetType`: alias.go:191-196. -/
def AMap.getType (a : AMap N T) (n : N) : Option T := lookup n a.namedTypes

/-- `aliasAdder.GetType`: alias.go:202-207. -/
def adderGet (a : AMap N T) (added : List (N × T)) (n : N) : Option T := (lookup n added).or (a.getType n)

/-- What `aliasAdder.Replace` makes of a type, given what the names stand for: alias.go:209-222; `none`: it panics.  (Nothing is assumed about
it; Verif/Conc/Alias.lean has the code.) -/
abbrev Replace (N T : Type) := (N → Option T) → T → Option T

/-- `ns.Map(func(e) { return am.Replace(e.Value()) })`: alias.go:168. -/
def resolveAll (R : Replace N T) (get : N → Option T) : List (N × T) → Option (List (N × T))
  | [] => some []
  | (n, t) :: r => (R get t).bind fun t' => (resolveAll R get r).map ((n, t') :: ·)

/-- `update`: alias.go:159-181; `none`: panic.  (The types are resolved in place, see `Verif/Alias/ResolveModel`;
here `Replace` returns them.) -/
def update (R : Replace N T) (a : AMap N T) (added : List (N × T)) : Option (AMap N T) :=
  (resolveAll R (adderGet a added) added).map fun rs =>
    rs.foldl (fun c e => ⟨insert c.namedTypes e.1 e.2, insert c.typeNames e.2 e.1⟩) a

/-- `Collect`, alias.go:150-157, with a function that calls `Add(t, name)` (alias.go:198-200) for these, in order.  `AddAliases`, alias.go:51-59,
does the same with the map that it replaces. -/
def collect (R : Replace N T) (a : AMap N T) (adds : List (T × N)) : Option (AMap N T) :=
  let added := insertAll [] (adds.map fun e => (e.2, e.1))
  if added.length > 0 then update R a added else some a

/-- Calls of `AddAliases`, one after the other; one that panics leaves the map as it was. -/
def calls (R : Replace N T) (a : AMap N T) : List (List (T × N)) → AMap N T
  | [] => a
  | c :: cs => calls R ((collect R a c).getD a) cs

/-! ## Declarations in a text -/

/-- `name=type`, with the declarations inside of the type, in the order of the text -/
inductive Decl (N T : Type) where
  | mk (name : N) (inner : List (Decl N T)) (t : T)

mutual
/-- `aliasDeclaration`, parser/parser.go:730-745; `none`: "attempt to redeclare identifier".  `mkAlias` is `NewAlias`; the result is the list of
calls of `Add`, which before were `adds`.  (Names of named types and of built-in types, which are refused as well, are left out: as if no text
declared them.) -/
def declare (mkAlias : N → T) (a : AMap N T) : List (T × N) → Decl N T → Option (List (T × N))
  | adds, .mk n inner t =>
    if (adderGet a (insertAll [] (adds.map fun e => (e.2, e.1))) n).isSome then none
    else (declareAll mkAlias a (adds ++ [(mkAlias n, n)]) inner).map (· ++ [(t, n)])
/-- The declarations of a text, in order -/
def declareAll (mkAlias : N → T) (a : AMap N T) : List (T × N) → List (Decl N T) → Option (List (T × N))
  | adds, [] => some adds
  | adds, d :: ds => (declare mkAlias a adds d).bind fun adds => declareAll mkAlias a adds ds
end

/-- `Parse`, parser/parser.go:132-137, of texts with these declarations, one after the other -/
def parses (R : Replace N T) (mkAlias : N → T) (a : AMap N T) : List (List (Decl N T)) → AMap N T
  | [] => a
  | ds :: r => parses R mkAlias (((declareAll mkAlias a [] ds).bind (collect R a)).getD a) r

end Verif.Alias
