import Verif.Text.NamedProps
import Verif.Binary.Model
import Verif.Time.TextModel
/-!
# C79 for arguments that are binaries, regular expressions and times
-/
set_option autoImplicit false
namespace Verif.Text
open Verif.Value (Str Val)

/-- `ValueString` for an argument that is written with its `String` method, `s`: internal/named.go:179-191 and util/indenter.go:93-102. -/
def otherString (name s : Str) : Str := Print.stringLoop [] (Print.chars (name ++ 32 :: s))

/-- **C79** does not hold for binaries and regular expressions: the text of the bytes d7 6d f8 is read as the integer 1234, that of the bytes b6 bb 9e, and that
of the regular expression /true/ (internal/regexp.go:126-128), as true, whatever the name. -/
theorem C79_binary_violated {S : SEnv} {E : PEnv} (hp : ∀ c < 32, S.isPrint c = false) (known : Str → Option Nat) (name : Str) (p : Nat)
    (hk : known name = some p) (hw : Word name) (hb : name ∉ words) :
    parseNamed E known (otherString name (Binary.text [0xd7, 0x6d, 0xf8])) = .ok (.new p (.val (.int 1234))) ∧
    parseNamed E known (otherString name (Binary.text [0xb6, 0xbb, 0x9e])) = .ok (.new p (.val (.bool true))) ∧
    parseNamed E known (otherString name [116, 114, 117, 101]) = .ok (.new p (.val (.bool true))) := by
  have h1 := (C79_partial (E := E) hp known name p hk hw hb).1 (.int 1234) (by simp [ArgOk, RtVal])
  have h2 := (C79_partial (E := E) hp known name p hk hw hb).1 (.bool true) (by simp [ArgOk, RtVal])
  have e2 : valueString S name (some (.bool true)) = otherString name [116, 114, 117, 101] := rfl
  have e1 : valueString S name (some (.int 1234)) = otherString name (Binary.text [0xd7, 0x6d, 0xf8]) := by
    have a : textOfPieces S (valPieces S (sensPieces S) (.int 1234)) = [49, 50, 51, 52] := by
      simp only [valPieces, textOfPieces, List.flatMap_cons, List.flatMap_nil, List.append_nil, Piece.text]
      decide +kernel
    have b : Binary.text [0xd7, 0x6d, 0xf8] = [49, 50, 51, 52] := by decide +kernel
    rw [b, valueString, valueText, otherString]
    simp only [a]
    rfl
  rw [e1] at h1
  rw [e2] at h2
  have b : Binary.text [0xb6, 0xbb, 0x9e] = [116, 114, 117, 101] := by decide +kernel
  rw [b]
  exact ⟨h1, h2, h2⟩

example : parseNamed Ex.penv (fun _ => some 0) (otherString Ex.point (Binary.text [0xd7, 0x6d, 0xf8])) = .ok (.new 0 (.val (.int 1234))) :=
  (C79_binary_violated asciiEnv_ctrl (fun _ => some 0) Ex.point 0 rfl Ex.word.1 Ex.word.2).1

/-- The text of a time is no text of the language: `point 2019-10-06T07:15:00Z`. -/
theorem C79_time_violated :
    (Time.format ⟨1570346100, 0, 0⟩).map UInt8.ofNat = w ['2', '0', '1', '9', '-', '1', '0', '-', '0', '6', 'T', '0', '7', ':', '1', '5', ':', '0', '0', 'Z'] ∧
    isSyntax (parseNamed Ex.penv (fun _ => some 0) (otherString Ex.point ((Time.format ⟨1570346100, 0, 0⟩).map UInt8.ofNat))) = true := by
  have h : (Time.format ⟨1570346100, 0, 0⟩).map UInt8.ofNat =
      w ['2', '0', '1', '9', '-', '1', '0', '-', '0', '6', 'T', '0', '7', ':', '1', '5', ':', '0', '0', 'Z'] := by decide +kernel
  rw [h]
  exact ⟨rfl, by decide +kernel⟩

end Verif.Text
