import Verif.Stream.Json
import Verif.Stream.Main
import Verif.Text.Number
/-!
# Lemmas on the JSON encoder and decoder
-/
set_option autoImplicit false
set_option linter.unusedVariables false
set_option linter.unusedSimpArgs false
namespace Verif.Stream
open Verif.Value (Str)

/-! ## Grammar (RFC 8259) -/

def JTok.scalar : JTok → Bool
  | .str _ | .num _ | .bool _ | .null => true
  | _ => false

mutual
/-- value = false / null / true / object / array / number / string -/
inductive JVal : List JTok → Prop
  | scalar (t : JTok) (h : t.scalar = true) : JVal [t]
  | arr0 : JVal [.lbrack, .rbrack]
  | arr (ts : List JTok) (h : JElems ts) : JVal ([.lbrack] ++ ts ++ [.rbrack])
  | obj0 : JVal [.lbrace, .rbrace]
  | obj (ts : List JTok) (h : JMembers ts) : JVal ([.lbrace] ++ ts ++ [.rbrace])
/-- value *( value-separator value ) -/
inductive JElems : List JTok → Prop
  | one (v : List JTok) (h : JVal v) : JElems v
  | more (ts v : List JTok) (h : JElems ts) (hv : JVal v) : JElems (ts ++ [.comma] ++ v)
/-- member *( value-separator member ), member = string name-separator value -/
inductive JMembers : List JTok → Prop
  | one (k : Str) (v : List JTok) (h : JVal v) : JMembers ([.str k, .colon] ++ v)
  | more (ts : List JTok) (k : Str) (v : List JTok) (h : JMembers ts) (hv : JVal v) : JMembers (ts ++ [.comma, .str k, .colon] ++ v)
end

/-! ## The tokens of a call -/

def pre : JState → List JTok
  | .firstInArray => []
  | .firstInObject => []
  | .afterKey => [.colon]
  | .afterValue => [.comma]
  | .afterElement => [.comma]

def post : JState → JState
  | .firstInArray => .afterElement
  | .firstInObject => .afterKey
  | .afterKey => .afterValue
  | .afterValue => .afterKey
  | .afterElement => .afterElement

def seqToks : JState → List (List JTok) → List JTok
  | _, [] => []
  | st, t :: ts => pre st ++ t ++ seqToks (post st) ts

def endState : JState → List (List JTok) → JState
  | st, [] => st
  | st, _ :: ts => endState (post st) ts

mutual
def jtoks (E : JEnv) : Ev → Option (List JTok)
  | .add a => (jwrite E a).map fun t => [t]
  | .addBin _ => some [.null]
  | .addTime _ => some [.null]
  | .ref n => some [.lbrace, .str dgoDialect.refKey, .colon, .num (Text.formatInt n), .rbrace]
  | .arr es => (jtoksAll E es).map fun l => [.lbrack] ++ seqToks .firstInArray l ++ [.rbrack]
  | .map es => (jtoksAll E es).map fun l => [.lbrace] ++ seqToks .firstInObject l ++ [.rbrace]
def jtoksAll (E : JEnv) : List Ev → Option (List (List JTok))
  | [] => some []
  | e :: es =>
    match jtoks E e with
    | none => none
    | some t =>
      match jtoksAll E es with
      | none => none
      | some l => some (t :: l)
end

theorem delimit_eq (st : JState) (doer : JState → Option (List JTok × JState)) (x : Option (List JTok))
    (hd : ∀ st, (doer st).map (·.1) = x) (ha : (doer .afterElement).map (·.2) = x.map fun _ => .afterElement) :
    delimit st doer = x.map fun t => (pre st ++ t, post st) := by
  cases st <;> simp only [delimit, pre, post]
  all_goals first
    | (rw [← hd]; cases doer _ <;> rfl)
    | skip
  have h1 := hd .afterElement
  cases hd' : doer .afterElement with
  | none => rw [hd'] at h1; rw [← h1]; rfl
  | some y =>
    rw [hd'] at h1 ha
    rw [← h1] at ha ⊢
    simp only [Option.map_some, Option.some.injEq] at ha
    simp [ha]

mutual
theorem jenc_eq (E : JEnv) (st : JState) : ∀ e : Ev, jenc E st e = (jtoks E e).map fun t => (pre st ++ t, post st)
  | .add a => by
    rw [jenc, jtoks]
    refine delimit_eq st _ _ ?_ ?_
    · intro st; cases jwrite E a <;> rfl
    · cases jwrite E a <;> rfl
  | .addBin b => by rw [jenc, jtoks]; exact delimit_eq st _ (some [.null]) (fun _ => rfl) rfl
  | .addTime b => by rw [jenc, jtoks]; exact delimit_eq st _ (some [.null]) (fun _ => rfl) rfl
  | .ref n => by
    rw [jenc, jtoks]
    exact delimit_eq st _ (some [.lbrace, .str dgoDialect.refKey, .colon, .num (Text.formatInt n), .rbrace]) (fun _ => rfl) rfl
  | .arr es => by
    rw [jenc, jtoks]
    have := jencAll_eq E .firstInArray es
    refine delimit_eq st _ _ ?_ ?_
    · intro st; rw [this]; cases jtoksAll E es <;> rfl
    · rw [this]; cases jtoksAll E es <;> rfl
  | .map es => by
    rw [jenc, jtoks]
    have := jencAll_eq E .firstInObject es
    refine delimit_eq st _ _ ?_ ?_
    · intro st; rw [this]; cases jtoksAll E es <;> rfl
    · rw [this]; cases jtoksAll E es <;> rfl
theorem jencAll_eq (E : JEnv) (st : JState) : ∀ es : List Ev, jencAll E st es = (jtoksAll E es).map fun l => (seqToks st l, endState st l)
  | [] => by simp [jencAll, jtoksAll, seqToks, endState]
  | e :: es => by
    rw [jencAll, jtoksAll, jenc_eq E st e]
    cases jtoks E e with
    | none => rfl
    | some t =>
      simp only [Option.map_some]
      rw [jencAll_eq E (post st) es]
      cases jtoksAll E es with
      | none => rfl
      | some l => simp [seqToks, endState]
end

/-! ## Shapes of calls -/

mutual
/-- All atoms satisfy `PA`, references `PR`; maps have pairs of a string and a value, the first key satisfies `PF`. -/
def Fine (PA : Atom → Prop) (PR : Int → Prop) (PF : Str → Prop) : Ev → Prop
  | .add a => PA a
  | .addBin _ => False
  | .addTime _ => False
  | .ref n => PR n
  | .arr es => FineAll PA PR PF es
  | .map es => FineMap PA PR PF es ∧ ∀ s r, es = .add (.str s) :: r → PF s
def FineAll (PA : Atom → Prop) (PR : Int → Prop) (PF : Str → Prop) : List Ev → Prop
  | [] => True
  | e :: es => Fine PA PR PF e ∧ FineAll PA PR PF es
def FineMap (PA : Atom → Prop) (PR : Int → Prop) (PF : Str → Prop) : List Ev → Prop
  | [] => True
  | .add (.str s) :: e :: es => PA (.str s) ∧ Fine PA PR PF e ∧ FineMap PA PR PF es
  | _ => False
end

/-! ## C47: the text is well formed -/

theorem jwrite_scalar {E : JEnv} {a : Atom} {t : JTok} (h : jwrite E a = some t) : t.scalar = true := by
  cases a with
  | nil => cases h; rfl
  | bool b => cases h; rfl
  | int i => cases h; rfl
  | float f =>
    simp only [jwrite, Option.map_eq_some_iff] at h
    obtain ⟨x, _, rfl⟩ := h
    rfl
  | str s => cases h; rfl

theorem elems_after : ∀ {l : List (List JTok)} {ts : List JTok}, (∀ v ∈ l, JVal v) → JElems ts → JElems (ts ++ seqToks .afterElement l)
  | [], ts, _, h => by simpa [seqToks] using h
  | v :: l, ts, hl, h => by
    have h1 := JElems.more ts v h (hl v List.mem_cons_self)
    have h2 := elems_after (l := l) (fun x hx => hl x (List.mem_cons_of_mem _ hx)) h1
    simpa [seqToks, pre, post, List.append_assoc] using h2

mutual
theorem jtoks_val {E : JEnv} {PA : Atom → Prop} {PR : Int → Prop} {PF : Str → Prop} : ∀ (e : Ev) (ts : List JTok), Fine PA PR PF e → jtoks E e = some ts → JVal ts
  | .add a, ts, hf, ht => by
    simp only [jtoks, Option.map_eq_some_iff] at ht
    obtain ⟨t, h1, rfl⟩ := ht
    exact .scalar t (jwrite_scalar h1)
  | .addBin _, ts, hf, ht => by simp [Fine] at hf
  | .addTime _, ts, hf, ht => by simp [Fine] at hf
  | .ref n, ts, hf, ht => by
    simp only [jtoks, Option.some.injEq] at ht
    subst ht
    exact .obj _ (.one dgoDialect.refKey _ (.scalar _ rfl))
  | .arr es, ts, hf, ht => by
    simp only [jtoks, Option.map_eq_some_iff] at ht
    obtain ⟨l, h1, rfl⟩ := ht
    simp only [Fine] at hf
    have hv := jtoksAll_val es l hf h1
    cases l with
    | nil => exact .arr0
    | cons v l =>
      refine .arr _ ?_
      have := elems_after (l := l) (fun x hx => hv x (List.mem_cons_of_mem _ hx)) (.one v (hv v List.mem_cons_self))
      simpa [seqToks, pre, post] using this
  | .map es, ts, hf, ht => by
    simp only [jtoks, Option.map_eq_some_iff] at ht
    obtain ⟨l, h1, rfl⟩ := ht
    simp only [Fine] at hf
    match es, hf, h1 with
    | [], _, h1 =>
      simp only [jtoksAll, Option.some.injEq] at h1
      subst h1
      exact .obj0
    | .add (.str s) :: e :: es, hf, h1 =>
      simp only [FineMap] at hf
      simp only [jtoksAll, jtoks, jwrite, Option.map_some] at h1
      cases hv : jtoks E e with
      | none => simp [hv] at h1
      | some v =>
        cases hr : jtoksAll E es with
        | none => simp [hv, hr] at h1
        | some l' =>
          simp only [hv, hr, Option.some.injEq] at h1
          subst h1
          refine .obj _ ?_
          have := jtoksMap_val es l' [.str (repair s), .colon] v hf.1.2.2 hr (.one _ v (jtoks_val e v hf.1.2.1 hv))
          simpa [seqToks, pre, post] using this
    | [.add (.str s)], hf, _ => simp [FineMap] at hf
    | .add .nil :: _, hf, _ => simp [FineMap] at hf
    | .add (.bool _) :: _, hf, _ => simp [FineMap] at hf
    | .add (.int _) :: _, hf, _ => simp [FineMap] at hf
    | .add (.float _) :: _, hf, _ => simp [FineMap] at hf
    | .addBin _ :: _, hf, _ => simp [FineMap] at hf
    | .addTime _ :: _, hf, _ => simp [FineMap] at hf
    | .ref _ :: _, hf, _ => simp [FineMap] at hf
    | .arr _ :: _, hf, _ => simp [FineMap] at hf
    | .map _ :: _, hf, _ => simp [FineMap] at hf
theorem jtoksAll_val {E : JEnv} {PA : Atom → Prop} {PR : Int → Prop} {PF : Str → Prop} : ∀ (es : List Ev) (l : List (List JTok)), FineAll PA PR PF es →
    jtoksAll E es = some l → ∀ v ∈ l, JVal v
  | [], l, hf, ht => by
    simp only [jtoksAll, Option.some.injEq] at ht
    subst ht
    simp
  | e :: es, l, hf, ht => by
    simp only [jtoksAll] at ht
    simp only [FineAll] at hf
    cases hv : jtoks E e with
    | none => simp [hv] at ht
    | some v =>
      cases hr : jtoksAll E es with
      | none => simp [hv, hr] at ht
      | some l' =>
        simp only [hv, hr, Option.some.injEq] at ht
        subst ht
        intro x hx
        rcases List.mem_cons.mp hx with rfl | hx
        · exact jtoks_val e x hf.1 hv
        · exact jtoksAll_val es l' hf.2 hr x hx
theorem jtoksMap_val {E : JEnv} {PA : Atom → Prop} {PR : Int → Prop} {PF : Str → Prop} : ∀ (es : List Ev) (l : List (List JTok)) (ts v : List JTok),
    FineMap PA PR PF es → jtoksAll E es = some l → JMembers (ts ++ v) → JMembers (ts ++ v ++ seqToks .afterValue l)
  | [], l, ts, v, hf, ht, hm => by
    simp only [jtoksAll, Option.some.injEq] at ht
    subst ht
    simpa [seqToks] using hm
  | .add (.str s) :: e :: es, l, ts, v, hf, ht, hm => by
    simp only [FineMap] at hf
    simp only [jtoksAll, jtoks, jwrite, Option.map_some] at ht
    cases hv : jtoks E e with
    | none => simp [hv] at ht
    | some v' =>
      cases hr : jtoksAll E es with
      | none => simp [hv, hr] at ht
      | some l' =>
        simp only [hv, hr, Option.some.injEq] at ht
        subst ht
        have h1 := JMembers.more (ts ++ v) (repair s) v' hm (jtoks_val e v' hf.2.1 hv)
        have h2 := jtoksMap_val es l' (ts ++ v ++ [.comma, .str (repair s), .colon]) v' hf.2.2 hr h1
        simpa [seqToks, pre, post, List.append_assoc] using h2
  | [.add (.str s)], _, _, _, hf, _, _ => by simp [FineMap] at hf
  | .add .nil :: _, _, _, _, hf, _, _ => by simp [FineMap] at hf
  | .add (.bool _) :: _, _, _, _, hf, _, _ => by simp [FineMap] at hf
  | .add (.int _) :: _, _, _, _, hf, _, _ => by simp [FineMap] at hf
  | .add (.float _) :: _, _, _, _, hf, _, _ => by simp [FineMap] at hf
  | .addBin _ :: _, _, _, _, hf, _, _ => by simp [FineMap] at hf
  | .addTime _ :: _, _, _, _, hf, _, _ => by simp [FineMap] at hf
  | .ref _ :: _, _, _, _, hf, _, _ => by simp [FineMap] at hf
  | .arr _ :: _, _, _, _, hf, _, _ => by simp [FineMap] at hf
  | .map _ :: _, _, _, _, hf, _, _ => by simp [FineMap] at hf
end

end Verif.Stream
