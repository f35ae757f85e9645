import Verif.Pcore.Spec
import Verif.Text.RoundTrip
import Mathlib.Data.List.Forall2
/-!
# Reading the tokens of type expressions: lists and names
-/
set_option autoImplicit false
set_option linter.unusedVariables false
set_option linter.unusedSimpArgs false
set_option linter.unnecessarySeqFocus false
namespace Verif.Pcore
open Verif.Value (Str Val F64)
open Verif.Types (Ty Oid maxInt)
open Verif.Text

/-- The token of a piece -/
def Pc.tok (S : SEnv) : Pc → Token
  | .name n => ⟨n.text, tName⟩
  | .dflt => ⟨w ['d', 'e', 'f', 'a', 'u', 'l', 't'], tIdentifier⟩
  | .undef => ⟨w ['u', 'n', 'd', 'e', 'f'], tIdentifier⟩
  | .bool true => ⟨w ['t', 'r', 'u', 'e'], tIdentifier⟩
  | .bool false => ⟨w ['f', 'a', 'l', 's', 'e'], tIdentifier⟩
  | .int i => ⟨formatInt i.toInt, tInteger⟩
  | .float f => ⟨S.ftoa f, tFloat⟩
  | .str s => ⟨s, tString⟩
  | .rx s => ⟨s, tRegexp⟩
  | .comma => ⟨[], 44⟩
  | .open_ => ⟨[], 91⟩
  | .close => ⟨[], 93⟩
  | .openB => ⟨[], 123⟩
  | .closeB => ⟨[], 125⟩
  | .rocket => ⟨[61, 62], tRocket⟩

def tk (S : SEnv) (ps : List Pc) : List Token := ps.map (Pc.tok S)

/-- Neither a bracket nor a parenthesis follows. -/
def Stop (ts : List Token) : Prop := (peekTok ts).type ≠ 91 ∧ (peekTok ts).type ≠ 40

/-- The tokens are read as a value that satisfies `P`, given the number of tokens that follow. -/
def Reads (E : Env) (q : List Token) (P : Nat → PV → Prop) : Prop :=
  (∃ a q', q = a :: q' ∧ a.type ≠ 93 ∧ a.type ≠ 125) ∧
  ∀ n rest, (q ++ rest).length ≤ n → Stop rest → ∃ v, element E n (peekTok (q ++ rest)) (q ++ rest).tail = .ok (v, rest) ∧ P rest.length v

abbrev tComma : Token := ⟨[], 44⟩
abbrev tClose : Token := ⟨[], 93⟩
abbrev tOpen : Token := ⟨[], 91⟩
abbrev tOpenB : Token := ⟨[], 123⟩
abbrev tCloseB : Token := ⟨[], 125⟩
abbrev tRock : Token := ⟨[61, 62], tRocket⟩

/-- Tokens with commas in between -/
def ctoks : List (List Token) → List Token
  | [] => []
  | [a] => a
  | a :: as => a ++ tComma :: ctoks as

theorem tk_append {S : SEnv} (a b : List Pc) : tk S (a ++ b) = tk S a ++ tk S b := List.map_append

theorem tk_commas {S : SEnv} : ∀ as : List (List Pc), tk S (commas as) = ctoks (as.map (tk S))
  | [] => rfl
  | [a] => rfl
  | a :: b :: as => by
    have ih := tk_commas (S := S) (b :: as)
    show tk S (a ++ .comma :: commas (b :: as)) = _
    rw [tk_append]
    show tk S a ++ tComma :: tk S (commas (b :: as)) = _
    rw [ih]
    rfl

theorem tk_brackets {S : SEnv} (as : List (List Pc)) : tk S (inBrackets as) = tOpen :: (ctoks (as.map (tk S)) ++ [tClose]) := by
  show tOpen :: tk S (commas as ++ [.close]) = _
  rw [tk_append, tk_commas]
  rfl

theorem peek_cons (a : Token) (ts : List Token) : peekTok (a :: ts) = a := rfl

theorem listLoop_reads {E : Env} {n : Nat} : ∀ (items : List (List Token × (Nat → PV → Prop))), (∀ i ∈ items, Reads E i.1 i.2) →
    ∀ (m : Nat) (rest : List Token), (ctoks (items.map (·.1)) ++ tClose :: rest).length ≤ n →
      (ctoks (items.map (·.1)) ++ tClose :: rest).length ≤ m →
      ∃ vs : List PV, listLoop (element E n) 93 m none (ctoks (items.map (·.1)) ++ tClose :: rest) = .ok (vs.map .one, rest) ∧
        List.Forall₂ (fun i v => ∃ k, rest.length < k ∧ i.2 k v) items vs
  | [], _, m, rest, _, hm => by
    obtain ⟨m, rfl⟩ : ∃ k, m = k + 1 := ⟨m - 1, by simp [ctoks] at hm; omega⟩
    exact ⟨[], by show listLoop _ _ _ _ (tClose :: rest) = _; rw [listLoop]; simp [peek_cons], .nil⟩
  | [(q, P)], h, m, rest, hn, hm => by
    obtain ⟨⟨a, q', rfl, ha, ha'⟩, hr⟩ := h _ List.mem_cons_self
    obtain ⟨m, rfl⟩ : ∃ k, m = k + 1 := ⟨m - 1, by simp [ctoks] at hm; omega⟩
    obtain ⟨v, e, hv⟩ := hr n (tClose :: rest) hn (by constructor <;> simp [peek_cons])
    refine ⟨[v], ?_, .cons ⟨_, by simp, hv⟩ .nil⟩
    show listLoop _ _ _ _ (a :: q' ++ tClose :: rest) = _
    have e : element E n a (q' ++ tClose :: rest) = .ok (v, tClose :: rest) := e
    simp [listLoop, peek_cons, ha, e]
  | (q, P) :: i :: items, h, m, rest, hn, hm => by
    obtain ⟨⟨a, q', rfl, ha, ha'⟩, hr⟩ := h _ List.mem_cons_self
    obtain ⟨m, rfl⟩ : ∃ k, m = k + 1 := ⟨m - 1, by simp [ctoks] at hm; omega⟩
    have hl : ctoks (((a :: q', P) :: i :: items).map (·.1)) ++ tClose :: rest =
        (a :: q') ++ (tComma :: (ctoks ((i :: items).map (·.1)) ++ tClose :: rest)) := by
      simp [ctoks]
    rw [hl] at hn hm ⊢
    obtain ⟨v, e, hv⟩ := hr n _ hn (by constructor <;> simp [peek_cons])
    obtain ⟨vs, e', hvs⟩ := listLoop_reads (n := n) (i :: items) (fun x hx => h x (List.mem_cons_of_mem _ hx)) m rest
      (by simp only [List.length_append, List.length_cons] at hn ⊢; omega) (by simp only [List.length_append, List.length_cons] at hm ⊢; omega)
    refine ⟨v :: vs, ?_, .cons ⟨_, by simp; omega, hv⟩ hvs⟩
    have e : element E n a (q' ++ tComma :: (ctoks ((i :: items).map (·.1)) ++ tClose :: rest)) = .ok (v, tComma :: (ctoks ((i :: items).map (·.1)) ++ tClose :: rest)) := e
    rw [List.cons_append, listLoop]
    simp only [peek_cons, ha, and_false, if_false, List.tail_cons, e, show (44 : Nat) ≠ 93 by decide, if_true, e']
    rfl

theorem convert_ones : ∀ vs : List PV, convert none (vs.map .one) = .ok vs
  | [] => rfl
  | v :: vs => by rw [List.map_cons, convert, convert_ones vs]; rfl

theorem pList_reads {E : Env} {n : Nat} (items : List (List Token × (Nat → PV → Prop))) (h : ∀ i ∈ items, Reads E i.1 i.2)
    (rest : List Token) (hn : (ctoks (items.map (·.1)) ++ tClose :: rest).length ≤ n) :
    ∃ vs : List PV, pList (element E n) 93 (ctoks (items.map (·.1)) ++ tClose :: rest) = .ok (vs, rest) ∧
      List.Forall₂ (fun i v => ∃ k, rest.length < k ∧ i.2 k v) items vs := by
  obtain ⟨vs, e, hvs⟩ := listLoop_reads items h ((ctoks (items.map (·.1)) ++ tClose :: rest).length + 1) rest hn (Nat.le_succ _)
  refine ⟨vs, ?_, hvs⟩
  rw [pList, e]
  dsimp only
  rw [convert_ones]
  rfl

theorem names_find (nm : Name) : names.find? (fun x => x.1 == nm.text) = some (nm.text, nm) := by
  cases nm <;> decide +kernel

theorem element_name {E : Env} {n : Nat} {nm : Name} {ts rest : List Token} {t : Ty} (h : knownType E (element E n) nm ts = .ok (.ty t, rest))
    (hs : Stop rest) : element E (n + 1) ⟨nm.text, tName⟩ ts = .ok (.ty t, rest) := by
  rw [element]
  simp only [show tName ≠ 123 by decide, show tName ≠ 91 by decide, show tName ≠ tInteger by decide, show tName ≠ tFloat by decide,
    show tName ≠ tIdentifier by decide, show tName ≠ tString by decide, show tName ≠ tRegexp by decide, if_false, if_true]
  rw [pName]
  simp only [names_find, h, hs.2, if_false]

/-- A type that takes no arguments -/
theorem reads_plain {E : Env} {nm : Name} {t : Ty} {P : Nat → PV → Prop} (h : plainType nm = some t) (hp : ∀ k, P k (.ty t)) :
    Reads E [⟨nm.text, tName⟩] P := by
  refine ⟨⟨_, _, rfl, by simp [tName], by simp [tName]⟩, fun n rest hn hs => ⟨.ty t, ?_, hp _⟩⟩
  obtain ⟨n, rfl⟩ : ∃ k, n = k + 1 := ⟨n - 1, by simp at hn; omega⟩
  exact element_name (by simp [knownType, h]) hs

/-- A type without arguments -/
theorem reads_bare {E : Env} {nm : Name} {P : Nat → PV → Prop} (h : plainType nm = none)
    (hp : ∀ k, ∃ t, bareType E (.user k) nm = .ok t ∧ P k (.ty t)) : Reads E [⟨nm.text, tName⟩] P := by
  refine ⟨⟨_, _, rfl, by simp [tName], by simp [tName]⟩, fun n rest hn hs => ?_⟩
  obtain ⟨n, rfl⟩ : ∃ k, n = k + 1 := ⟨n - 1, by simp at hn; omega⟩
  obtain ⟨t, h1, h2⟩ := hp rest.length
  refine ⟨.ty t, element_name ?_ hs, h2⟩
  simp only [knownType, h, List.nil_append, List.tail_cons, List.cons_append, hs.1, if_false]
  rw [h1]
  rfl

/-- A type with arguments -/
theorem reads_args {E : Env} {nm : Name} {P : Nat → PV → Prop} (h : plainType nm = none) (items : List (List Token × (Nat → PV → Prop)))
    (hi : ∀ i ∈ items, Reads E i.1 i.2)
    (hp : ∀ k vs, List.Forall₂ (fun i v => ∃ m, k < m ∧ i.2 m v) items vs → ∃ t, argsType E (.user k) vs nm = .ok t ∧ P k (.ty t)) :
    Reads E (⟨nm.text, tName⟩ :: tOpen :: (ctoks (items.map (·.1)) ++ [tClose])) P := by
  refine ⟨⟨_, _, rfl, by simp [tName], by simp [tName]⟩, fun n rest hn hs => ?_⟩
  obtain ⟨n, rfl⟩ : ∃ k, n = k + 1 := ⟨n - 1, by simp at hn; omega⟩
  have hl : ctoks (items.map (·.1)) ++ [tClose] ++ rest = ctoks (items.map (·.1)) ++ tClose :: rest := by simp
  obtain ⟨vs, e, hvs⟩ := pList_reads (n := n) items hi rest (by rw [← hl]; simp only [List.cons_append, List.length_cons] at hn; omega)
  obtain ⟨t, h1, h2⟩ := hp _ _ hvs
  refine ⟨.ty t, element_name ?_ hs, h2⟩
  simp only [knownType, h, List.cons_append, List.tail_cons, peek_cons, if_true]
  rw [hl, e]
  simp only [h1]
  rfl

/-! ## Scalars -/

theorem element_int {E : Env} {n : Nat} (i : BitVec 64) (ts : List Token) :
    element E (n + 1) ⟨formatInt i.toInt, tInteger⟩ ts = .ok (.val (.int i), ts) := by
  rw [element]
  have : tokenInt ⟨formatInt i.toInt, tInteger⟩ = i := by
    rw [tokenInt_format (by have := BitVec.le_toInt i; simpa using this) (by have := BitVec.toInt_lt (x := i); simpa using this)]
    simp
  simp [show tInteger ≠ 123 by decide, show tInteger ≠ 91 by decide, this]

theorem reads_one {E : Env} {a : Token} {v : PV} {P : Nat → PV → Prop} (h1 : a.type ≠ 93) (h2 : a.type ≠ 125)
    (h : ∀ n ts, Stop ts → element E (n + 1) a ts = .ok (v, ts)) (hp : ∀ k, P k v) : Reads E [a] P := by
  refine ⟨⟨_, _, rfl, h1, h2⟩, fun n rest hn hs => ?_⟩
  obtain ⟨n, rfl⟩ : ∃ k, n = k + 1 := ⟨n - 1, by simp at hn; omega⟩
  exact ⟨v, h n rest hs, hp _⟩

theorem reads_int {S : SEnv} {E : Env} (i : BitVec 64) : Reads E (tk S [.int i]) fun _ v => v = .val (.int i) :=
  reads_one (by simp [Pc.tok, tInteger, tFloat, tString, tRegexp, tIdentifier]) (by simp [Pc.tok, tInteger, tFloat, tString, tRegexp, tIdentifier]) (fun _ _ _ => element_int _ _) fun _ => rfl

theorem reads_dflt {S : SEnv} {E : Env} : Reads E (tk S [.dflt]) fun _ v => v = .val (.str defaultLiteral) :=
  reads_one (by simp [Pc.tok, tInteger, tFloat, tString, tRegexp, tIdentifier]) (by simp [Pc.tok, tInteger, tFloat, tString, tRegexp, tIdentifier]) (fun n ts _ => by rw [element]; rfl) fun _ => rfl

theorem reads_undef {S : SEnv} {E : Env} : Reads E (tk S [.undef]) fun _ v => v = .val .nil :=
  reads_one (by simp [Pc.tok, tInteger, tFloat, tString, tRegexp, tIdentifier]) (by simp [Pc.tok, tInteger, tFloat, tString, tRegexp, tIdentifier]) (fun n ts _ => by rw [element]; rfl) fun _ => rfl

theorem reads_bool {S : SEnv} {E : Env} (b : Bool) : Reads E (tk S [.bool b]) fun _ v => v = .val (.bool b) := by
  cases b
  · exact reads_one (by simp [Pc.tok, tInteger, tFloat, tString, tRegexp, tIdentifier]) (by simp [Pc.tok, tInteger, tFloat, tString, tRegexp, tIdentifier]) (fun n ts _ => by rw [element]; rfl) fun _ => rfl
  · exact reads_one (by simp [Pc.tok, tInteger, tFloat, tString, tRegexp, tIdentifier]) (by simp [Pc.tok, tInteger, tFloat, tString, tRegexp, tIdentifier]) (fun n ts _ => by rw [element]; rfl) fun _ => rfl

theorem reads_str {S : SEnv} {E : Env} (s : Str) : Reads E (tk S [.str s]) fun _ v => v = .val (.str s) :=
  reads_one (by simp [Pc.tok, tInteger, tFloat, tString, tRegexp, tIdentifier]) (by simp [Pc.tok, tInteger, tFloat, tString, tRegexp, tIdentifier]) (fun n ts _ => by rw [element]; rfl) fun _ => rfl

theorem reads_rx {S : SEnv} {E : Env} (s : Str) (h : E.compiles s = true) : Reads E (tk S [.rx s]) fun _ v => v = .val (.regexp s) :=
  reads_one (by simp [Pc.tok, tInteger, tFloat, tString, tRegexp, tIdentifier]) (by simp [Pc.tok, tInteger, tFloat, tString, tRegexp, tIdentifier]) (fun n ts _ => by
    rw [element]
    simp [Pc.tok, show tRegexp ≠ 123 by decide, show tRegexp ≠ 91 by decide, show tRegexp ≠ tInteger by decide, show tRegexp ≠ tFloat by decide,
      show tRegexp ≠ tIdentifier by decide, show tRegexp ≠ tString by decide, h]) fun _ => rfl

theorem reads_float {S : SEnv} {E : Env} (f : F64) (h : E.parseFloat (S.ftoa f) = f) : Reads E (tk S [.float f]) fun _ v => v = .val (.float f) :=
  reads_one (by simp [Pc.tok, tInteger, tFloat, tString, tRegexp, tIdentifier]) (by simp [Pc.tok, tInteger, tFloat, tString, tRegexp, tIdentifier]) (fun n ts _ => by
    rw [element]
    simp [Pc.tok, show tFloat ≠ 123 by decide, show tFloat ≠ 91 by decide, show tFloat ≠ tInteger by decide, h]) fun _ => rfl

/-! ## Hashes -/

theorem hashLoop_reads {E : Env} {n : Nat} : ∀ (items : List ((List Token × (Nat → PV → Prop)) × (List Token × (Nat → PV → Prop)))),
    (∀ i ∈ items, Reads E i.1.1 i.1.2 ∧ Reads E i.2.1 i.2.2) →
    ∀ (m : Nat) (rest : List Token), (ctoks (items.map fun i => i.1.1 ++ tRock :: i.2.1) ++ tCloseB :: rest).length ≤ n →
      (ctoks (items.map fun i => i.1.1 ++ tRock :: i.2.1) ++ tCloseB :: rest).length ≤ m →
      ∃ es, hashLoop (element E n) m (ctoks (items.map fun i => i.1.1 ++ tRock :: i.2.1) ++ tCloseB :: rest) = .ok (es, rest) ∧
        List.Forall₂ (fun i e => (∃ k, rest.length < k ∧ i.1.2 k e.1) ∧ ∃ k, rest.length < k ∧ i.2.2 k e.2) items es
  | [], _, m, rest, _, hm => by
    obtain ⟨m, rfl⟩ : ∃ k, m = k + 1 := ⟨m - 1, by simp [ctoks] at hm; omega⟩
    exact ⟨[], by show hashLoop _ _ (tCloseB :: rest) = _; rw [hashLoop]; simp [peek_cons], .nil⟩
  | ((q, P), (r, Q)) :: items, h, m, rest, hn, hm => by
    obtain ⟨⟨⟨a, q', rfl, ha, ha'⟩, hr⟩, ⟨⟨b, r', rfl, hb, hb'⟩, hs⟩⟩ := h _ List.mem_cons_self
    obtain ⟨m, rfl⟩ : ∃ k, m = k + 1 := ⟨m - 1, by cases items <;> simp [ctoks] at hm <;> omega⟩
    obtain ⟨tl, htl, hcase⟩ : ∃ tl, ctoks ((((a :: q', P), (b :: r', Q)) :: items).map fun i => i.1.1 ++ tRock :: i.2.1) ++ tCloseB :: rest =
        a :: q' ++ tRock :: (b :: r' ++ tl) ∧ ((items = [] ∧ tl = tCloseB :: rest) ∨
          (items ≠ [] ∧ tl = tComma :: (ctoks (items.map fun i => i.1.1 ++ tRock :: i.2.1) ++ tCloseB :: rest))) := by
      cases items with
      | nil => exact ⟨_, by simp [ctoks], Or.inl ⟨rfl, rfl⟩⟩
      | cons i items => exact ⟨_, by simp [ctoks], Or.inr ⟨by simp, rfl⟩⟩
    rw [htl] at hn hm ⊢
    have hlen : rest.length < tl.length := by
      rcases hcase with ⟨_, rfl⟩ | ⟨_, rfl⟩ <;> simp <;> omega
    have hst : Stop tl := by rcases hcase with ⟨_, rfl⟩ | ⟨_, rfl⟩ <;> constructor <;> simp [peek_cons]
    obtain ⟨v, e, hv⟩ := hr n _ hn (by constructor <;> simp [peek_cons, tRocket])
    obtain ⟨x, e2, hx⟩ := hs n tl (by simp only [List.length_append, List.length_cons] at hn ⊢; omega) hst
    have e : element E n a (q' ++ tRock :: (b :: r' ++ tl)) = .ok (v, tRock :: (b :: r' ++ tl)) := e
    have e2 : element E n b (r' ++ tl) = .ok (x, tl) := e2
    have hv' : ∃ k, rest.length < k ∧ P k v := ⟨_, by simp only [List.length_append, List.length_cons]; omega, hv⟩
    have hx' : ∃ k, rest.length < k ∧ Q k x := ⟨_, hlen, hx⟩
    have step : hashLoop (element E n) (m + 1) (a :: q' ++ tRock :: (b :: r' ++ tl)) =
        if (peekTok tl).type = 125 then .ok ([(v, x)], tl.tail)
        else if (peekTok tl).type = 44 then (hashLoop (element E n) m tl.tail).map fun y => ((v, x) :: y.1, y.2)
        else .error (.syntax (peekTok tl)) := by
      rw [List.cons_append, hashLoop]
      simp only [peek_cons, ha', if_false, List.tail_cons]
      rw [e]
      simp only [peek_cons, ne_eq, not_true, if_false, List.tail_cons, List.cons_append]
      rw [e2]
    rw [step]
    rcases hcase with ⟨rfl, rfl⟩ | ⟨hne, rfl⟩
    · exact ⟨[(v, x)], by simp [peek_cons], .cons ⟨hv', hx'⟩ .nil⟩
    · obtain ⟨es, e3, hes⟩ := hashLoop_reads (n := n) items (fun i hi => h i (List.mem_cons_of_mem _ hi)) m rest
        (by simp only [List.length_append, List.length_cons] at hn ⊢; omega) (by simp only [List.length_append, List.length_cons] at hm ⊢; omega)
      refine ⟨(v, x) :: es, ?_, .cons ⟨hv', hx'⟩ hes⟩
      simp only [peek_cons, show (44 : Nat) ≠ 125 by decide, if_false, if_true, List.tail_cons, e3]
      rfl

theorem reads_hash {E : Env} (items : List ((List Token × (Nat → PV → Prop)) × (List Token × (Nat → PV → Prop))))
    (h : ∀ i ∈ items, Reads E i.1.1 i.1.2 ∧ Reads E i.2.1 i.2.2) :
    Reads E (tOpenB :: (ctoks (items.map fun i => i.1.1 ++ tRock :: i.2.1) ++ [tCloseB])) fun m v => ∃ es, v = .map es ∧
      List.Forall₂ (fun i e => (∃ k, m < k ∧ i.1.2 k e.1) ∧ ∃ k, m < k ∧ i.2.2 k e.2) items es := by
  refine ⟨⟨_, _, rfl, by simp [tName], by simp [tName]⟩, fun n rest hn hs => ?_⟩
  obtain ⟨n, rfl⟩ : ∃ k, n = k + 1 := ⟨n - 1, by simp at hn; omega⟩
  have hl : ctoks (items.map fun i => i.1.1 ++ tRock :: i.2.1) ++ [tCloseB] ++ rest = ctoks (items.map fun i => i.1.1 ++ tRock :: i.2.1) ++ tCloseB :: rest := by simp
  obtain ⟨es, e, hes⟩ := hashLoop_reads (n := n) items h ((ctoks (items.map fun i => i.1.1 ++ tRock :: i.2.1) ++ tCloseB :: rest).length + 1) rest
    (by rw [← hl]; simp only [List.cons_append, List.length_cons] at hn; omega) (Nat.le_succ _)
  refine ⟨.map es, ?_, es, rfl, hes⟩
  rw [element]
  simp only [List.cons_append, peek_cons, if_true, List.tail_cons]
  rw [hl, e]
  rfl

end Verif.Pcore
