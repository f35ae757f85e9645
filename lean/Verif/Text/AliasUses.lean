import Verif.Text.AliasProps
/-!
# C126: names are used wherever they can be
-/
set_option autoImplicit false
set_option linter.unusedSimpArgs false
namespace Verif.Text
open Verif.Value (Str Val F64)
open Verif.Types (Ty Oid maxInt)

variable {N : Names} {S : SEnv}

theorem nam_word {t : Ty} {n : Str} (h : N t = some n) (st : Val → List Piece) (prio : Nat) : namPieces N S st prio t = [.word n] := by
  cases t <;> (rw [namPieces]; unfold named; rw [h])

theorem named_not {t : Ty} (h : N t = none) (ps : List Piece) : named N t ps = ps := by unfold named; rw [h]

theorem text_append (a b : List Piece) : textOfPieces S (a ++ b) = textOfPieces S a ++ textOfPieces S b := by simp [textOfPieces]

theorem text_word (n : Str) : textOfPieces S [.word n] = n := by simp [textOfPieces, Piece.text]

/-- Names with a character between them -/
def listed (c : UInt8) : List Str → Str
  | [] => []
  | [n] => n
  | n :: ns => n ++ [c] ++ listed c ns

theorem text_join {nm : Ty → Str} {c : UInt8} {st : Val → List Piece} {prio : Nat} : ∀ {ts : List Ty}, (∀ t ∈ ts, N t = some (nm t)) →
    textOfPieces S (namJoin N S st (.ch c) prio ts) = listed c (ts.map nm)
  | [], _ => by rw [namJoin]; rfl
  | [t], h => by rw [namJoin, nam_word (h t (by simp)), text_word]; rfl
  | t :: u :: ts, h => by
    rw [namJoin, text_append, text_append, nam_word (h t (by simp)), text_word, text_join fun x hx => h x (List.mem_cons_of_mem _ hx)]
    · simp [listed, textOfPieces, Piece.text]
    · simp

theorem text_tuple {nm : Ty → Str} {st : Val → List Piece} : ∀ {ts : List Ty}, (∀ t ∈ ts, N t = some (nm t)) →
    textOfPieces S (namTuple N S st false ts) = listed 44 (ts.map nm)
  | [], _ => by rw [namTuple]; rfl
  | [t], h => by rw [namTuple, nam_word (h t (by simp))]; simp [listed, textOfPieces, Piece.text]
  | t :: u :: ts, h => by
    rw [namTuple, text_append, text_append, nam_word (h t (by simp)), text_word, text_tuple fun x hx => h x (List.mem_cons_of_mem _ hx)]
    · simp [listed, textOfPieces, Piece.text]
    · simp

/-- **C126, names are used.**  A type that has no name itself, but whose parts have, is printed with these in the places of the parts: `[]n`, `map[k]n`, `!n`,
`sensitive[n]`, `type[n]`. -/
theorem C126_uses_names {e k : Ty} {n m : Str} (he : N e = some n) (hk : N k = some m) (o : Oid) (ha : e.isAny = false) :
    (N (.sizedArr o e 0 maxInt) = none → typeStringWith N S (.sizedArr o e 0 maxInt) = [91, 93] ++ n) ∧
    (N (.sizedMap o k e 0 maxInt) = none → typeStringWith N S (.sizedMap o k e 0 maxInt) = wMap ++ [91] ++ m ++ [93] ++ n) ∧
    (N (.not e) = none → typeStringWith N S (.not e) = [33] ++ n) ∧
    (N (.sens o e) = none → typeStringWith N S (.sens o e) = wSensitive ++ [91] ++ n ++ [93]) ∧
    (N (.metaT e) = none → typeStringWith N S (.metaT e) = wType ++ [91] ++ n ++ [93]) := by
  refine ⟨fun h => ?_, fun h => ?_, fun h => ?_, fun h => ?_, fun h => ?_⟩ <;>
    (unfold typeStringWith; rw [namPieces, named_not h]; simp [nam_word he, nam_word hk, ha, textOfPieces, Piece.text])

/-- **C126, names are used in lists.**  … `{a,b,c}`, `a|b|c`, `a^b^c` and `a&b&c`, with any number of parts. -/
theorem C126_uses_names_lists {ts : List Ty} {nm : Ty → Str} (h : ∀ t ∈ ts, N t = some (nm t)) (o : Oid) :
    (N (.tuple o ts false) = none → typeStringWith N S (.tuple o ts false) = [123] ++ listed 44 (ts.map nm) ++ [125]) ∧
    (N (.anyOf o ts) = none → typeStringWith N S (.anyOf o ts) = listed 124 (ts.map nm)) ∧
    (N (.oneOf o ts) = none → typeStringWith N S (.oneOf o ts) = listed 94 (ts.map nm)) ∧
    (N (.allOf o ts) = none → typeStringWith N S (.allOf o ts) = listed 38 (ts.map nm)) := by
  refine ⟨fun h0 => ?_, fun h0 => ?_, fun h0 => ?_, fun h0 => ?_⟩
  · unfold typeStringWith
    rw [namPieces, named_not h0, text_append, text_append, text_tuple h]
    simp [textOfPieces, Piece.text]
  all_goals
    unfold typeStringWith
    rw [namPieces, named_not h0]
    rw [show ∀ ps, ternary commaPrio ps = ps from fun ps => by simp [ternary, orPrio, commaPrio]]
    exact text_join h

/-- `[]port` and `port|port` -/
example : typeStringWith portName S (.sizedArr (.user 1) portTy 0 maxInt) = [91, 93] ++ wPort ∧
    typeStringWith portName S (.anyOf (.user 1) [portTy, portTy]) = wPort ++ [124] ++ wPort :=
  have h : portName portTy = some wPort := by decide +kernel
  ⟨(C126_uses_names h h _ rfl).1 rfl, (C126_uses_names_lists (nm := fun _ => wPort) (ts := [portTy, portTy]) (by simp [h]) _).2.1 rfl⟩

end Verif.Text
