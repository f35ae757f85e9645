import Verif.Pcore.Lexer
import Verif.Text.Parser
import Verif.Alias.Model
/-!
# Names in pcore expressions

`type X = …` and names that are not built in: streamer/pcore/parser.go:186-202, 634-719, 812-819.
-/
set_option autoImplicit false
namespace Verif.Pcore
open Verif.Value (Str)
open Verif.Text (w)
open Verif.HMap (KeyOps)
open Verif.HMap.Spec (insertAll)
open Verif.Alias

/-- `strings.Split(s, "::")` -/
def splitColons : Str → List Str
  | [] => [[]]
  | b :: r =>
    match b, r with
    | 58, 58 :: r => [] :: splitColons r
    | b, r =>
      match splitColons r with
      | [] => [[b]]
      | s :: ss => (b :: s) :: ss
  termination_by s => s.length

/-- `strings.ToLower(n[:1]) + n[1:]`: parser.go:816; `none`: there is no first byte, a runtime error.  The first byte of a character of several bytes
is not a text, so `ToLower` makes U+FFFD of it. -/
def lowerFirst : Str → Option Str
  | [] => none
  | b :: r => some ((if b.toNat < 128 then [if 65 ≤ b.toNat ∧ b.toNat ≤ 90 then b + 32 else b] else [0xEF, 0xBF, 0xBD]) ++ r)

/-- The loop parser.go:814-817 -/
def lowerAll : List Str → Option (List Str)
  | [] => some []
  | s :: ss =>
    match lowerFirst s with
    | none => none
    | some s => (lowerAll ss).map (s :: ·)

/-- `strings.Join(ns, ".")` -/
def joinDots : List Str → Str
  | [] => []
  | [s] => s
  | s :: ss => s ++ 46 :: joinDots ss

/-- `toDgoName`: parser.go:812-819; `none`: a runtime error. -/
def toDgoName (n : Str) : Option Str := (lowerAll (splitColons n)).map joinDots

/-- The names of `identifierToTypeMap` and `identifierToFuncMap`: parser.go:634-666. -/
def builtinNames : List Str :=
  [w ['A', 'n', 'y'], w ['B', 'o', 'o', 'l', 'e', 'a', 'n'], w ['F', 'a', 'l', 's', 'e'], w ['T', 'i', 'm', 'e', 's', 't', 'a', 'm', 'p'],
   w ['T', 'r', 'u', 'e'], w ['U', 'n', 'd', 'e', 'f'],
   w ['A', 'r', 'r', 'a', 'y'], w ['B', 'i', 'n', 'a', 'r', 'y'], w ['C', 'a', 'l', 'l', 'a', 'b', 'l', 'e'], w ['F', 'l', 'o', 'a', 't'],
   w ['E', 'n', 'u', 'm'], w ['H', 'a', 's', 'h'], w ['I', 'n', 't', 'e', 'g', 'e', 'r'], w ['N', 'u', 'm', 'b', 'e', 'r'],
   w ['N', 'o', 't', 'U', 'n', 'd', 'e', 'f'], w ['O', 'p', 't', 'i', 'o', 'n', 'a', 'l'], w ['P', 'a', 't', 't', 'e', 'r', 'n'],
   w ['R', 'e', 'g', 'e', 'x', 'p'], w ['S', 'e', 'n', 's', 'i', 't', 'i', 'v', 'e'], w ['S', 't', 'r', 'i', 'n', 'g'],
   w ['S', 't', 'r', 'u', 'c', 't'], w ['T', 'u', 'p', 'l', 'e'], w ['T', 'y', 'p', 'e'], w ['V', 'a', 'r', 'i', 'a', 'n', 't']]

/-- Names as keys of maps: their bytes are compared (internal/string.go:575-596). -/
instance strKey : KeyOps Str := ⟨Value.strHash, fun a b => a == b, id⟩

variable {T : Type} [KeyOps T]

mutual
/-- `aliasDeclaration`: parser.go:186-202; `none`: "attempt to redeclare identifier", or the runtime error of `toDgoName`.  `named` tells which names
`tf.Named` has.  As in `Alias.declare` the result is the list of calls of `Add`. -/
def pdeclare (named : Str → Bool) (mkAlias : Str → T) (a : AMap Str T) : List (T × Str) → Decl Str T → Option (List (T × Str))
  | adds, .mk x inner t =>
    if builtinNames.contains x then none
    else
      match toDgoName x with
      | none => none
      | some n =>
        if named n then none
        else if (adderGet a (insertAll [] (adds.map fun e => (e.2, e.1))) n).isSome then none
        else (pdeclareAll named mkAlias a (adds ++ [(mkAlias n, n)]) inner).map (· ++ [(t, n)])
/-- The declarations of a text, in order -/
def pdeclareAll (named : Str → Bool) (mkAlias : Str → T) (a : AMap Str T) : List (T × Str) → List (Decl Str T) → Option (List (T × Str))
  | adds, [] => some adds
  | adds, d :: ds => (pdeclare named mkAlias a adds d).bind fun adds => pdeclareAll named mkAlias a adds ds
end

/-- What a name that is not built in is, where it is used: `aliasReference`, parser.go:705-719, without parameters of named types.  `none`: an alias that
is not resolved yet. -/
inductive Ref (T : Type) where
  | named (n : Str)
  | known (t : T)
  | alias_ (n : Str)
  deriving DecidableEq, Repr
def reference (named : Str → Bool) (a : AMap Str T) (adds : List (T × Str)) (x : Str) : Option (Ref T) :=
  match toDgoName x with
  | none => none
  | some n =>
    if named n then some (.named n)
    else
      match adderGet a (insertAll [] (adds.map fun e => (e.2, e.1))) n with
      | some t => some (.known t)
      | none => some (.alias_ n)

end Verif.Pcore
