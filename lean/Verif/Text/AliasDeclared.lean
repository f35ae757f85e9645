import Verif.Text.AliasProps
import Verif.Alias.Props
/-!
# C126 and C102 together: names that texts have declared

The alias map is the one of Alias/Model.lean, after texts with any declarations have been read.  Its `GetName` is what the printer asks, its `GetType` is what
the parser asks.
-/
set_option autoImplicit false
namespace Verif.Text
open Verif.Value (Str Val)
open Verif.Types (Ty Oid maxInt)
open Verif.Alias (AMap Decl Replace)
open Verif.HMap (KeyOps LawfulKey)

/-- The parser with this alias map (types up to which object they are) -/
def withAliases [KeyOps Str] (E : PEnv) (a : AMap Str Ty) : PEnv := { E with alias_ := fun n => (a.getType n).map strip }

section
variable [KeyOps Str] [KeyOps Ty] [LawfulKey Str] [LawfulKey Ty]

/-- **C126, for names that texts have declared.**  After any texts with declarations were read, accepted or refused, what is printed with the names known then
is read back, then and after any further texts: a name is never given to another type.  `hw`: the names are identifiers and no words of the language (the
parser declares no others, parser.go:730-745), and types of values have none; `he`: types that are equal are the same (C82 says for which types). -/
theorem C126_declared_partial {R : Replace Str Ty} {mk : Str → Ty} (before after : List (List (Decl Str Ty))) {S : SEnv} {E : PEnv}
    (hp : ∀ c < 32, S.isPrint c = false)
    (hw : ∀ n t, (Alias.parses R mk .empty before).getType n = some t → Word n ∧ n ∉ wordsOfTypes ∧ t.isExact = false)
    (he : ∀ t u : Ty, KeyOps.eq t u = true → strip t = strip u) {t : Ty}
    (h : RtN (Alias.parses R mk .empty before).getName S (withAliases E (Alias.parses R mk .empty (before ++ after))) t) :
    parseType (withAliases E (Alias.parses R mk .empty (before ++ after))) (typeStringWith (Alias.parses R mk .empty before).getName S t) =
      .ok (strip t) := by
  obtain ⟨h1, h2⟩ := Alias.C102_declared (R := R) (mk := mk) before after
  refine C126_partial (fun t n hn => ?_) hp h
  obtain ⟨t', h3, h4⟩ := h2 n t hn
  obtain ⟨h5, h6, h7⟩ := hw n t' h3
  have h8 := he t t' h4
  refine ⟨h5, h6, ?_, ?_⟩
  · show (AMap.getType _ n).map strip = _
    rw [h1 n t' h3, h8]; rfl
  · rw [← strip_isExact, h8, strip_isExact, h7]

end

/-! ### `port=1..65535`, then `port=string`, which is refused -/
section Example

local instance : KeyOps Str := ⟨fun _ => 0, fun a b => a == b, id⟩
open Classical in
noncomputable local instance : KeyOps Ty := ⟨fun _ => 0, fun a b => decide (strip a = strip b), id⟩
local instance : LawfulKey Str where
  refl a := by simp [KeyOps.eq]
  symm a b h := by simp [KeyOps.eq] at h ⊢; exact h.symm
  trans a b c h1 h2 := by simp [KeyOps.eq] at h1 h2 ⊢; exact h1.trans h2
  hash _ _ _ := rfl
  frz a := by simp [KeyOps.eq, KeyOps.freeze]
local instance : LawfulKey Ty where
  refl a := by simp [KeyOps.eq]
  symm a b h := by simp [KeyOps.eq] at h ⊢; exact h.symm
  trans a b c h1 h2 := by simp [KeyOps.eq] at h1 h2 ⊢; exact h1.trans h2
  hash _ _ _ := rfl
  frz a := by simp [KeyOps.eq, KeyOps.freeze]

/-- The alias map after `port=1..65535` -/
theorem afterPort : Alias.parses (fun _ t => some t) (fun _ => .any) .empty [[Decl.mk wPort [] portTy]] =
    (⟨[(wPort, portTy)], [(portTy, wPort)]⟩ : AMap Str Ty) := by
  simp [Alias.parses, Alias.declareAll, Alias.declare, Alias.collect, Alias.update, Alias.resolveAll, Alias.adderGet, AMap.getType, AMap.empty,
    HMap.Spec.insertAll, HMap.Spec.insert, HMap.Spec.lookup, KeyOps.eq, KeyOps.freeze]

example (P : PEnv) : parseType (withAliases P (Alias.parses (fun _ t => some t) (fun _ => .any) .empty
      ([[Decl.mk wPort [] portTy]] ++ [[Decl.mk wPort [] .strT]])))
    (typeStringWith (Alias.parses (fun _ t => some t) (fun _ => .any) .empty [[Decl.mk wPort [] portTy]]).getName asciiEnv portsTy) = .ok (strip portsTy) := by
  refine C126_declared_partial _ _ asciiEnv_ctrl ?_ (fun t u h => by simpa [KeyOps.eq] using h) (Nam.RtTy.rtN _ (portsTy_ok _))
  rw [afterPort]
  intro n t h
  obtain ⟨rfl, rfl⟩ : n = wPort ∧ portTy = t := by simpa [AMap.getType, HMap.Spec.lookup, KeyOps.eq] using h
  exact ⟨word_ok, by decide +kernel, rfl⟩
end Example

end Verif.Text
