import Verif.Conc.Tree
/-!
# C89: absolute names of loaders
-/
set_option autoImplicit false
namespace Verif.Conc.Tree
open Verif.Value (Val Str)

/-- The namespace of a loader is an older one: `New` gets it (loader.go:59-79) and nothing assigns it later. -/
def Older (E : Env) : Prop := ∀ i p, E.parentNs i = some p → p < i

/-- `mapLoader.AbsoluteName`: loader.go:134-142 (`loader` embeds the `mapLoader`). -/
def absoluteOf (E : Env) (h : Older E) (i : Nat) : Str :=
  let an := 47 :: E.name i
  match hp : E.parentNs i with
  | none => an
  | some p =>
    have := h i p hp
    let pn := absoluteOf E h p
    if pn ≠ [47] then pn ++ an else an

/-- `AbsoluteName` of any loader: a `childLoader` (loader.go:34-37) embeds its own loader. -/
def absoluteName (E : Env) (h : Older E) : L → Str
  | .base i => absoluteOf E h i
  | .child own _ => absoluteName E h own

/-- the namespaces one below the other -/
def namespaces (E : Env) (l : L) : List Str → Option L
  | [] => some l
  | p :: ps => (namespace' E l p).bind fun l' => namespaces E l' ps

/-! ## Specification -/

/-- The namespaces are what the documentation of `NsCreator` asks for: made for the loader and the name. -/
def WellNamed (E : Env) : Prop := ∀ i n j, E.ns i n = some j → E.name j = n ∧ E.parentNs j = some i

/-- a name of a namespace: not empty, and without a slash -/
def Segment (s : Str) : Prop := s ≠ [] ∧ 47 ∉ s

/-- `/a/b/c` -/
def pathOf (ps : List Str) : Str := ps.flatMap fun p => 47 :: p

/-- A loader in the root namespace, without a name; of a `childLoader`, all loaders that it is made of (`loaderWithParent`, loader.go:370-372,
gives the new one the name and the namespace of the parent). -/
def Root (E : Env) : L → Prop
  | .base i => E.name i = [] ∧ E.parentNs i = none
  | .child own parent => Root E own ∧ Root E parent

end Verif.Conc.Tree
