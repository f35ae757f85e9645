import Verif.Pcore.Lexing
/-!
# Reading the literals of values
-/
set_option autoImplicit false
set_option linter.unusedVariables false
set_option linter.unusedSimpArgs false
namespace Verif.Pcore
open Verif.Value (Str Val F64)
open Verif.Text

theorem reads_arr {E : Env} (items : List Item) (h : ∀ i ∈ items, Reads E i.1 i.2) :
    Reads E (tOpen :: (ctoks (items.map (·.1)) ++ [tClose])) fun m v => ∃ vs, v = .arr vs ∧
      List.Forall₂ (fun i v => ∃ k, m < k ∧ i.2 k v) items vs := by
  refine ⟨⟨_, _, rfl, by simp, by simp⟩, fun n rest hn hs => ?_⟩
  obtain ⟨n, rfl⟩ : ∃ k, n = k + 1 := ⟨n - 1, by simp at hn; omega⟩
  have hl : ctoks (items.map (·.1)) ++ [tClose] ++ rest = ctoks (items.map (·.1)) ++ tClose :: rest := by simp
  obtain ⟨vs, e, hvs⟩ := pList_reads (n := n) items h rest (by rw [← hl]; simp only [List.cons_append, List.length_cons] at hn; omega)
  refine ⟨.arr vs, ?_, vs, rfl, hvs⟩
  rw [element]
  simp only [List.cons_append, peek_cons, if_true, List.tail_cons, show (91 : Nat) ≠ 123 by decide, if_false]
  rw [hl, e]
  rfl

/-- The value is read. -/
def ValOf (v : Val) (_ : Nat) (x : PV) : Prop := x.toVal = some v

theorem toVals_of {k : Nat} {S : SEnv} : ∀ {vs : List Val} {xs : List PV},
    List.Forall₂ (fun (i : Item) x => ∃ m, k < m ∧ i.2 m x) (vs.map fun v => (tk S (valPieces v), ValOf v)) xs → toVals xs = some vs
  | [], _, .nil => rfl
  | v :: vs, _, .cons h r => by
    obtain ⟨m, hm, h⟩ := h
    rw [toVals, show PV.toVal _ = some v from h, toVals_of r]

theorem toEntries_of {k : Nat} {S : SEnv} : ∀ {es : List (Val × Val)} {xs : List (PV × PV)},
    List.Forall₂ (fun (i : Item × Item) (e : PV × PV) => (∃ m, k < m ∧ i.1.2 m e.1) ∧ ∃ m, k < m ∧ i.2.2 m e.2)
      (es.map fun e => ((tk S (valPieces e.1), ValOf e.1), (tk S (valPieces e.2), ValOf e.2))) xs → toEntries xs = some es
  | [], _, .nil => rfl
  | (a, b) :: es, _, .cons (b := (x, y)) h r => by
    obtain ⟨⟨m, hm, h⟩, m', hm', h'⟩ := h
    rw [toEntries, show PV.toVal _ = some a from h, show PV.toVal _ = some b from h', toEntries_of r]

theorem valsPieces_eq : ∀ vs : List Val, valsPieces vs = vs.map valPieces
  | [] => rfl
  | v :: vs => by rw [valsPieces, valsPieces_eq vs]; rfl

theorem entriesPieces_eq : ∀ es : List (Val × Val), entriesPieces es = es.map fun e => valPieces e.1 ++ .rocket :: valPieces e.2
  | [] => rfl
  | (k, v) :: es => by rw [entriesPieces, entriesPieces_eq es]; rfl

variable {E : Env} {S : SEnv}

theorem reads_scalar {q : List Token} {v : Val} (h : Reads E q fun _ x => x = .val v) : Reads E q (ValOf v) := by
  refine ⟨h.1, fun n rest hn hs => ?_⟩
  obtain ⟨x, e, rfl⟩ := h.2 n rest hn hs
  exact ⟨_, e, rfl⟩

mutual
theorem reads_val : ∀ v : Val, Literal E v → (∀ c ∈ valPieces v, c.Fine S E) → Reads E (tk S (valPieces v)) (ValOf v)
  | .nil, _, _ => reads_scalar reads_undef
  | .bool b, _, _ => reads_scalar (reads_bool b)
  | .int i, _, _ => reads_scalar (reads_int i)
  | .float f, _, hc => reads_scalar (reads_float f (hc (.float f) List.mem_cons_self).2)
  | .str s, _, _ => reads_scalar (reads_str s)
  | .regexp s, h, _ => reads_scalar (reads_rx s h)
  | .bin _, h, _ => h.elim
  | .time _, h, _ => h.elim
  | .sens _, h, _ => h.elim
  | .arr vs, h, hc => by
    have hp : valPieces (.arr vs) = inBrackets (vs.map valPieces) := by rw [valPieces, valsPieces_eq]
    rw [hp] at hc ⊢
    rw [tk_brackets]
    have := reads_arr (E := E) (vs.map fun v => (tk S (valPieces v), ValOf v)) (by
      intro i hi
      obtain ⟨v, hv, rfl⟩ := List.mem_map.1 hi
      exact reads_vals vs h (fun v hv c hx => hc c (List.mem_cons_of_mem _ (List.mem_append_left _ (mem_commas (List.mem_map.2 ⟨v, hv, rfl⟩) hx)))) v hv)
    rw [List.map_map] at this ⊢
    refine ⟨this.1, fun n rest hn hs => ?_⟩
    obtain ⟨x, e, xs, rfl, hxs⟩ := this.2 n rest hn hs
    refine ⟨_, e, ?_⟩
    show PV.toVal (.arr xs) = some (.arr vs)
    rw [PV.toVal, toVals_of hxs]
    rfl
  | .map es, h, hc => by
    have hp : valPieces (.map es) = .openB :: (commas (es.map fun e => valPieces e.1 ++ .rocket :: valPieces e.2) ++ [.closeB]) := by
      rw [valPieces, entriesPieces_eq]
    rw [hp] at hc ⊢
    have hin : ∀ e ∈ es, ∀ c ∈ valPieces e.1 ++ .rocket :: valPieces e.2, c.Fine S E := fun e he c hx =>
      hc c (List.mem_cons_of_mem _ (List.mem_append_left _ (mem_commas (List.mem_map.2 ⟨e, he, rfl⟩) hx)))
    have := reads_hash (E := E) (es.map fun e => ((tk S (valPieces e.1), ValOf e.1), (tk S (valPieces e.2), ValOf e.2))) (by
      intro i hi
      obtain ⟨e, he, rfl⟩ := List.mem_map.1 hi
      exact reads_entries es h hin e he)
    have e : tk S (.openB :: (commas (es.map fun e => valPieces e.1 ++ .rocket :: valPieces e.2) ++ [.closeB])) =
        tOpenB :: (ctoks ((es.map fun e => ((tk S (valPieces e.1), ValOf e.1), (tk S (valPieces e.2), ValOf e.2))).map fun i => i.1.1 ++ tRock :: i.2.1) ++ [tCloseB]) := by
      show tOpenB :: tk S (commas _ ++ [.closeB]) = _
      rw [tk_append, tk_commas, List.map_map, List.map_map]
      congr 2
      congr 1
      refine List.map_congr_left fun f _ => ?_
      show tk S (valPieces f.1 ++ .rocket :: valPieces f.2) = _
      rw [tk_append]
      rfl
    rw [e]
    refine ⟨this.1, fun n rest hn hs => ?_⟩
    obtain ⟨v, hv, xs, rfl, hxs⟩ := this.2 n rest hn hs
    refine ⟨_, hv, ?_⟩
    show PV.toVal (.map xs) = some (.map es)
    rw [PV.toVal, toEntries_of hxs]
    rfl

theorem reads_vals : ∀ vs : List Val, Literals E vs → (∀ v ∈ vs, ∀ c ∈ valPieces v, c.Fine S E) → ∀ v ∈ vs, Reads E (tk S (valPieces v)) (ValOf v)
  | v :: vs, h, hc, x, hx => by
    rcases List.mem_cons.1 hx with he | hx
    · rw [he]; exact reads_val v h.1 (hc v List.mem_cons_self)
    · exact reads_vals vs h.2 (fun v hv => hc v (List.mem_cons_of_mem _ hv)) x hx

theorem reads_entries : ∀ es : List (Val × Val), LiteralEntries E es → (∀ e ∈ es, ∀ c ∈ valPieces e.1 ++ .rocket :: valPieces e.2, c.Fine S E) →
    ∀ e ∈ es, Reads E (tk S (valPieces e.1)) (ValOf e.1) ∧ Reads E (tk S (valPieces e.2)) (ValOf e.2)
  | (k, v) :: es, h, hc, x, hx => by
    rcases List.mem_cons.1 hx with he | hx
    · rw [he]
      have := hc (k, v) List.mem_cons_self
      exact ⟨reads_val k h.1 fun c hx => this c (List.mem_append_left _ hx),
        reads_val v h.2.1 fun c hx => this c (List.mem_append_right _ (List.mem_cons_of_mem _ hx))⟩
    · exact reads_entries es h.2.2 (fun v hv => hc v (List.mem_cons_of_mem _ hv)) x hx
end

mutual
theorem apart_val : ∀ v : Val, Apart (valPieces v)
  | .nil => trivial
  | .bool b => trivial
  | .int i => trivial
  | .float f => trivial
  | .str s => trivial
  | .regexp s => trivial
  | .bin _ => trivial
  | .time _ => trivial
  | .sens _ => trivial
  | .entry _ _ => trivial
  | .arr vs => apart_cons rfl (apart_sep (b := []) rfl trivial (apart_commas (apart_vals vs)))
  | .map es => apart_cons rfl (apart_sep (b := []) rfl trivial (apart_commas (apart_entries es)))
theorem apart_vals : ∀ vs : List Val, ∀ a ∈ valsPieces vs, Apart a
  | v :: vs, a, h => by
    rcases List.mem_cons.1 h with he | h
    · rw [he]; exact apart_val v
    · exact apart_vals vs a h
theorem apart_entries : ∀ es : List (Val × Val), ∀ a ∈ entriesPieces es, Apart a
  | (k, v) :: es, a, h => by
    rcases List.mem_cons.1 h with he | h
    · rw [he]; exact apart_sep rfl (apart_val v) (apart_val k)
    · exact apart_entries es a h
end

/-! ## Whole texts -/

theorem parse_written (hp : ∀ c < 32, S.isPrint c = false) {ps : List Pc} {t : Str} (h : Written S ps t) (ha : Apart ps)
    (hf : ∀ p ∈ ps, p.Fine S E) : parse E t = parseTokens E (tk S ps ++ [⟨[], tEnd⟩]) := by
  rw [parse, tokens_written hp h ha hf]

theorem parseTokens_reads {q : List Token} {P : Nat → PV → Prop} (h : Reads E q P) : ∃ v, parseTokens E (q ++ [⟨[], tEnd⟩]) = .ok v ∧ P 1 v := by
  obtain ⟨v, e, hv⟩ := h.2 ((q ++ [(⟨[], tEnd⟩ : Token)]).length + 1) [⟨[], tEnd⟩] (Nat.le_succ _) (by constructor <;> simp [peek_cons, tEnd])
  refine ⟨v, ?_, hv⟩
  rw [parseTokens, e]
  simp [peek_cons, tEnd, tRocket]

end Verif.Pcore
