import Verif.Stream.JsonLemmas
import Verif.Stream.Spec
/-!
# Specification: the bytes of JSON texts (RFC 8259)

The grammar of tokens is `JVal` (Stream/JsonLemmas.lean).  Here is how tokens are spelled.
-/
set_option autoImplicit false
namespace Verif.Stream
open Verif.Value (Str)
open Verif.Text (encode Scalar)

/-- ws = *( space / tab / line feed / carriage return ) -/
def Blank (b : UInt8) : Prop := b = 32 ∨ b = 9 ∨ b = 10 ∨ b = 13

/-- The byte `b` is a hexadecimal digit with the value `v`. -/
def HexOf (b : UInt8) (v : Nat) : Prop :=
  (48 ≤ b.toNat ∧ b.toNat ≤ 57 ∧ b.toNat = 48 + v) ∨ (97 ≤ b.toNat ∧ b.toNat ≤ 102 ∧ b.toNat = 87 + v) ∨
    (65 ≤ b.toNat ∧ b.toNat ≤ 70 ∧ b.toNat = 55 + v)

/-- 4HEXDIG -/
def Hex4 (n : Nat) (t : Str) : Prop :=
  ∃ a b c d x y z w, t = [a, b, c, d] ∧ HexOf a x ∧ HexOf b y ∧ HexOf c z ∧ HexOf d w ∧ n = x * 4096 + y * 256 + z * 16 + w

/-- `CharText loose c t`: the text `t` stands, in a string literal, for the character `c`.  With `loose`, which is not JSON, bytes that are not
UTF-8 and surrogates that are not in pairs stand for U+FFFD. -/
inductive CharText (loose : Bool) : Nat → Str → Prop
  | unescaped (c : Nat) (hc : Scalar c) (h : 0x20 ≤ c) (hq : c ≠ 34) (hb : c ≠ 92) : CharText loose c (encode c)
  | escape (b : UInt8) (c : Nat) (h : (b, c) ∈ [((34 : UInt8), 34), (92, 92), (47, 47), (98, 8), (102, 12), (110, 10), (114, 13), (116, 9)]) :
      CharText loose c [92, b]
  | unicode (c : Nat) (t : Str) (hc : Scalar c) (h : Hex4 c t) : CharText loose c ([92, 117] ++ t)
  | surrogates (hi lo : Nat) (t t' : Str) (hh : 0xD800 ≤ hi ∧ hi < 0xDC00) (hl : 0xDC00 ≤ lo ∧ lo < 0xE000) (h : Hex4 hi t) (h' : Hex4 lo t') :
      CharText loose (0x10000 + (hi - 0xD800) * 0x400 + (lo - 0xDC00)) ([92, 117] ++ t ++ [92, 117] ++ t')
  | byte (b : UInt8) (hl : loose = true) (hb : 0x80 ≤ b.toNat) : CharText loose 0xFFFD [b]
  | half (c : Nat) (t : Str) (hl : loose = true) (hc : ¬Scalar c) (h : Hex4 c t) : CharText loose 0xFFFD ([92, 117] ++ t)

/-- `StrText loose s t`: the text `t`, between quotes, is a literal of the string `s`. -/
inductive StrText (loose : Bool) : Str → Str → Prop
  | nil : StrText loose [] []
  | cons (c : Nat) (t s t' : Str) (h : CharText loose c t) (h' : StrText loose s t') : StrText loose (encode c ++ s) (t ++ t')

def IsDigit (b : UInt8) : Prop := 48 ≤ b.toNat ∧ b.toNat ≤ 57

/-- 1*DIGIT -/
def Digits1 (t : Str) : Prop := t ≠ [] ∧ ∀ b ∈ t, IsDigit b

/-- int = zero / ( digit1-9 *DIGIT ) -/
def IntText (t : Str) : Prop := t = [48] ∨ ∃ b ds, t = b :: ds ∧ IsDigit b ∧ b ≠ 48 ∧ ∀ d ∈ ds, IsDigit d

/-- number = [ minus ] int [ frac ] [ exp ] -/
def NumText (t : Str) : Prop :=
  ∃ m i f e, t = m ++ i ++ f ++ e ∧ (m = [] ∨ m = [45]) ∧ IntText i ∧ (f = [] ∨ ∃ ds, Digits1 ds ∧ f = [46] ++ ds) ∧
    (e = [] ∨ ∃ x g ds, Digits1 ds ∧ (x = 101 ∨ x = 69) ∧ (g = [] ∨ g = [43] ∨ g = [45]) ∧ e = [x] ++ g ++ ds)

/-- `TokText loose t x`: the token `t` is spelled `x`. -/
inductive TokText (loose : Bool) : JTok → Str → Prop
  | lbrack : TokText loose .lbrack [91]
  | rbrack : TokText loose .rbrack [93]
  | lbrace : TokText loose .lbrace [123]
  | rbrace : TokText loose .rbrace [125]
  | comma : TokText loose .comma [44]
  | colon : TokText loose .colon [58]
  | str (s t : Str) (h : StrText loose s t) : TokText loose (.str s) ([34] ++ t ++ [34])
  | num (t : Str) (h : NumText t) : TokText loose (.num t) t
  | true : TokText loose (.bool true) [116, 114, 117, 101]
  | false : TokText loose (.bool false) [102, 97, 108, 115, 101]
  | null : TokText loose .null [110, 117, 108, 108]

/-- `Spells loose ts bs`: the bytes are the spellings of the tokens, one after the other, with blanks anywhere between and around them. -/
inductive Spells (loose : Bool) : List JTok → Str → Prop
  | nil : Spells loose [] []
  | blank (b : UInt8) (ts : List JTok) (bs : Str) (hb : Blank b) (h : Spells loose ts bs) : Spells loose ts (b :: bs)
  | tok (t : JTok) (x : Str) (ts : List JTok) (bs : Str) (hx : TokText loose t x) (h : Spells loose ts bs) : Spells loose (t :: ts) (x ++ bs)

/-- JSON-text = ws value ws -/
def JsonText (bs : Str) : Prop := ∃ ts, JVal ts ∧ Spells false ts bs

/-- What encoding/json writes for a float is a number. -/
def FloatsAreNumbers (E : JEnv) : Prop := ∀ f x, E.floatText f = some x → NumText x

/-! ## What JSON texts say -/

/-- The number that digits stand for -/
def decimal (ds : Str) : Nat := ds.foldl (fun n d => n * 10 + (d.toNat - 48)) 0

/-- The text `x` is the integer `i`. -/
def IntegerText (x : Str) (i : Int) : Prop :=
  ∃ ds, Digits1 ds ∧ ((x = ds ∧ i = decimal ds) ∨ (x = [45] ++ ds ∧ i = -(decimal ds : Int)))

/-- A number is an integer if it is written as one and has 64 bits; otherwise a float. -/
def Number (E : JEnv) (x : Str) (t : T) : Prop :=
  (∃ i, IntegerText x i ∧ -2 ^ 63 ≤ i ∧ i < 2 ^ 63 ∧ t = .int (BitVec.ofInt 64 i)) ∨
  ((∀ i, IntegerText x i → i < -2 ^ 63 ∨ 2 ^ 63 ≤ i) ∧ t = .float (E.parseFloat x))

mutual
/-- `Says E d ts t`: the JSON value `ts` is the data `t`.  The members of an object have different names, none of which is a word of the
dialect `d` (the key of types or of references). -/
inductive Says (E : JEnv) (d : Dialect) : List JTok → T → Prop
  | null : Says E d [.null] .nil
  | bool (b : Bool) : Says E d [.bool b] (.bool b)
  | str (s : Str) : Says E d [.str s] (.str s)
  | num (x : Str) (t : T) (hx : NumText x) (h : Number E x t) : Says E d [.num x] t
  | arr0 : Says E d [.lbrack, .rbrack] (.arr [])
  | arr (ts : List JTok) (l : List T) (h : SaysAll E d ts l) : Says E d ([.lbrack] ++ ts ++ [.rbrack]) (.arr l)
  | obj0 : Says E d [.lbrace, .rbrace] (.map [])
  | obj (ts : List JTok) (l : List (Str × T)) (h : SaysMembers E d ts l) (hn : (l.map (·.1)).Nodup)
      (hd : ∀ e ∈ l, e.1 ≠ d.typeKey ∧ e.1 ≠ d.refKey) : Says E d ([.lbrace] ++ ts ++ [.rbrace]) (.map (l.map fun e => (.str e.1, e.2)))
/-- The elements of an array -/
inductive SaysAll (E : JEnv) (d : Dialect) : List JTok → List T → Prop
  | one (v : List JTok) (t : T) (h : Says E d v t) : SaysAll E d v [t]
  | more (v : List JTok) (t : T) (ts : List JTok) (l : List T) (h : Says E d v t) (h' : SaysAll E d ts l) : SaysAll E d (v ++ [.comma] ++ ts) (t :: l)
/-- The members of an object -/
inductive SaysMembers (E : JEnv) (d : Dialect) : List JTok → List (Str × T) → Prop
  | one (k : Str) (v : List JTok) (t : T) (h : Says E d v t) : SaysMembers E d ([.str k, .colon] ++ v) [(k, t)]
  | more (k : Str) (v : List JTok) (t : T) (ts : List JTok) (l : List (Str × T)) (h : Says E d v t) (h' : SaysMembers E d ts l) :
      SaysMembers E d ([.str k, .colon] ++ v ++ [.comma] ++ ts) ((k, t) :: l)
end

end Verif.Stream
