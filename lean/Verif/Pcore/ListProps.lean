import Verif.Pcore.Lists
import Verif.Pcore.Props
/-!
# C62 and C63: sizes of tuples, patterns in strings, lists with entries
-/
set_option autoImplicit false
set_option linter.unusedVariables false
set_option linter.unusedSimpArgs false
namespace Verif.Pcore
open Verif.Value (Str Val F64 WF)
open Verif.Types (Ty Oid Fits instanceOf maxInt Acycs_iff)
open Verif.Text (SEnv PEnv Token w tEnd tString tInteger tIdentifier formatInt)

/-! ### C62: sizes of tuples -/

/-- The limits of a tuple say that it has exactly `n` elements; `-1` is the same as `default`, which is the number of types. -/
def Lim.exactly (n : Nat) : Lim → Prop
  | .both lo hi => (∀ a, lo = some a → a = -1 ∨ a.toInt = n) ∧ ∀ b, hi = some b → b = -1 ∨ b.toInt = n
  | _ => False

theorem forall₂_split {α β : Type} {R : α → β → Prop} : ∀ {a b : List α} {l : List β}, List.Forall₂ R (a ++ b) l →
    ∃ x y, List.Forall₂ R a x ∧ List.Forall₂ R b y ∧ l = x ++ y
  | [], b, l, h => ⟨[], l, .nil, h, rfl⟩
  | c :: a, b, _, .cons h r => by
    obtain ⟨x, y, h1, h2, rfl⟩ := forall₂_split r
    exact ⟨_ :: x, y, .cons h h1, h2, rfl⟩

theorem forall₂_each {E : Env} {k : Nat} {ps : List Pt} {ts : List Ty} (h : List.Forall₂ (fun p t => ∃ m, k < m ∧ Good E p m t) ps ts) :
    ∀ vs : List Val, (∀ x ∈ vs, WF x ∧ Fits x) → (List.Forall₂ (fun t x => instanceOf E.types t x = true) ts vs ↔ DenEach E ps vs) := by
  induction h with
  | nil => intro vs _; cases vs <;> simp [DenEach]
  | cons h _ ih =>
    obtain ⟨m, hm, g⟩ := h
    intro vs hv
    cases vs with
    | nil => simp [DenEach]
    | cons x vs =>
      rw [List.forall₂_cons, g.inst x (hv x (by simp)).1 (hv x (by simp)).2, ih vs fun y hy => hv y (by simp [hy])]
      simp only [DenEach, List.cons.injEq]
      constructor
      · rintro ⟨a, b⟩; exact ⟨x, vs, ⟨rfl, rfl⟩, a, b⟩
      · rintro ⟨y, r, ⟨rfl, rfl⟩, a, b⟩; exact ⟨a, b⟩

/-- What a tuple with sizes describes -/
def TupleDen (E : Env) (init : List Pt) (last : Pt) (exact : Prop) (v : Val) : Prop :=
  (exact ∧ ∃ vs, v = .arr vs ∧ DenEach E (init ++ [last]) vs) ∨
  (¬ exact ∧ ∃ vs ws, v = .arr (vs ++ ws) ∧ DenEach E init vs ∧ ∀ x ∈ ws, Den E last x)

theorem tupleOf_den {E : Env} {k : Nat} {init : List Pt} {last : Pt} {ts : List Ty} {min max : Int} {exact : Prop}
    (h : List.Forall₂ (fun p t => ∃ m, k < m ∧ Good E p m t) (init ++ [last]) ts) (hu : ∀ p ∈ init ++ [last], p.onlyUndef = false)
    (he : exact ↔ min = (init.length + 1 : Nat) ∧ min = max) :
    ∃ t, tupleOf (.user k) (ts.map .ty) min max = some t ∧ ∀ v, WF v → Fits v → (instanceOf E.types t v = true ↔ TupleDen E init last exact v) := by
  have hlen : ts.length = init.length + 1 := by rw [← h.length_eq]; simp
  rw [tupleOf, allSome_ty, Option.bind_some, List.length_map, hlen]
  by_cases hx : exact
  · rw [if_pos (he.1 hx)]
    obtain ⟨u, e, g⟩ := good_tuple h (by simp) hu
    refine ⟨u, e, fun v hw hf => ?_⟩
    rw [g.inst v hw hf]
    simp [TupleDen, Den, hx]
  · rw [if_neg fun h => hx (he.2 h)]
    obtain ⟨h1, h2, h3⟩ := each_good h
    obtain ⟨us, ls, hus, hls, rfl⟩ : ∃ us ls, List.Forall₂ (fun p t => ∃ m, k < m ∧ Good E p m t) init us ∧
        List.Forall₂ (fun p t => ∃ m, k < m ∧ Good E p m t) [last] ls ∧ ts = us ++ ls := forall₂_split h
    obtain ⟨u, hls', rfl⟩ : ∃ u, (∃ m, k < m ∧ Good E last m u) ∧ ls = [u] := by
      cases hls with
      | cons a b => cases b; exact ⟨_, a, rfl⟩
    obtain ⟨m, hm, g⟩ := hls'
    obtain ⟨t, ht⟩ : ∃ t, Types.variadicTupleType (.user k) (us ++ [u]) = some t := by
      unfold Types.variadicTupleType Types.newTupleType
      simp only [List.length_append, List.length_singleton, Nat.succ_ne_zero, if_false, Bool.not_true, Bool.false_and]
      split
      · exact ⟨_, rfl⟩
      · simp
    refine ⟨t, ht, fun v hw hf => ?_⟩
    rw [Types.C31_variadic ht (Acycs_iff.2 h1) (occs_fresh h2)]
    simp only [TupleDen, hx, false_and, false_or, not_false_eq_true, true_and]
    constructor
    · rintro ⟨vs, ws, rfl, ha, hb⟩
      have hin : ∀ x ∈ vs ++ ws, WF x ∧ Fits x := fun x hx => ⟨(Value.WFs_iff _).1 hw x hx, fits_mem hf x hx⟩
      exact ⟨vs, ws, rfl, (forall₂_each hus vs fun x hx => hin x (by simp [hx])).1 ha,
        fun x hx => (g.inst x (hin x (by simp [hx])).1 (hin x (by simp [hx])).2).1 (hb x hx)⟩
    · rintro ⟨vs, ws, rfl, ha, hb⟩
      have hin : ∀ x ∈ vs ++ ws, WF x ∧ Fits x := fun x hx => ⟨(Value.WFs_iff _).1 hw x hx, fits_mem hf x hx⟩
      exact ⟨vs, ws, rfl, (forall₂_each hus vs fun x hx => hin x (by simp [hx])).2 ha,
        fun x hx => (g.inst x (hin x (by simp [hx])).1 (hin x (by simp [hx])).2).2 (hb x hx)⟩

theorem size_val (n : Nat) (l : Option (BitVec 64)) :
    (if l.getD (-1) = -1 then (n : Int) else (l.getD (-1)).toInt) = n ↔ ∀ a, l = some a → a = -1 ∨ a.toInt = n := by
  cases l with
  | none => simp
  | some a =>
    simp only [Option.getD_some, Option.some.injEq, forall_eq']
    by_cases h : a = -1
    · simp [h]
    · rw [if_neg h]; simp only [h, false_or]

/-- **C62, the sizes of a tuple, as the code treats them.**  `Tuple[T…, min]` and `Tuple[T…, min, max]` say that there are exactly as many
elements as types if both limits are that number; any other limits are ignored: the tuple then has any number of further elements of the
last type in place of it (`C62_tuple_violated`). -/
theorem C62_tuple_sizes_partial {S : SEnv} {E : Env} (hp : ∀ c < 32, S.isPrint c = false) {init : List Pt} {last : Pt} {l : Lim} (hl : l ≠ .all)
    (hok : ∀ p ∈ init ++ [last], p.Ok E ∧ p.onlyUndef = false) (hlen : (init.length + 1 : Int) < maxInt)
    (hf : ∀ c ∈ (.name .tuple :: inBrackets ((init ++ [last]).map Pt.pieces ++ l.args) : List Pc), c.Fine S E)
    {text : Str} (hw : Written S (.name .tuple :: inBrackets ((init ++ [last]).map Pt.pieces ++ l.args)) text) :
    ∃ t, parseType E text = .ok t ∧ ∀ v, WF v → Fits v →
      (instanceOf E.types t v = true ↔ TupleDen E init last (l.exactly (init.length + 1)) v) := by
  have hap : Apart (.name .tuple :: inBrackets ((init ++ [last]).map Pt.pieces ++ l.args)) := by
    refine apart_brackets _ fun a ha => ?_
    rcases List.mem_append.1 ha with ha | ha
    · obtain ⟨p, _, rfl⟩ := List.mem_map.1 ha
      exact apart_pieces p
    · exact apart_lim l a ha
  have hr : Reads E (tk S (.name .tuple :: inBrackets ((init ++ [last]).map Pt.pieces ++ l.args))) fun _ x => ∃ t, x = .ty t ∧
      ∀ v, WF v → Fits v → (instanceOf E.types t v = true ↔ TupleDen E init last (l.exactly (init.length + 1)) v) := by
    have hts : ∀ p ∈ init ++ [last], Reads E (tk S p.pieces) (TyOf E p) := fun p hp' =>
      reads_type p (hok p hp').1 fun c hx => hf c (mem_brackets (List.mem_append_left _ (List.mem_map.2 ⟨p, hp', rfl⟩)) hx)
    let limItems : List Item := l.args.map fun a => (tk S a, fun _ v => ∃ x, a = [limPc x] ∧ v = limVal x)
    refine reads_bracket (S := S) rfl _ (((init ++ [last]).map fun p => (tk S p.pieces, TyOf E p)) ++ limItems) ?_ ?_ ?_
    · simp [limItems, Function.comp_def]
    · intro i hi
      rcases List.mem_append.1 hi with hi | hi
      · obtain ⟨p, hp', rfl⟩ := List.mem_map.1 hi
        exact hts p hp'
      · obtain ⟨a, ha, rfl⟩ := List.mem_map.1 hi
        obtain ⟨x, rfl⟩ : ∃ x, a = [limPc x] := by
          cases l with
          | all => cases ha
          | low lo => exact ⟨lo, List.mem_singleton.1 ha⟩
          | both lo up =>
            rcases List.mem_cons.1 ha with h | h
            · exact ⟨lo, h⟩
            · exact ⟨up, List.mem_singleton.1 h⟩
        refine ⟨(reads_lim (E := E) (S := S) x).1, fun n rest hn hs => ?_⟩
        obtain ⟨v, e, hv⟩ := (reads_lim (E := E) (S := S) x).2 n rest hn hs
        exact ⟨v, e, x, rfl, hv⟩
    · intro k vs hvs
      obtain ⟨as, bs, has, hbs, rfl⟩ : ∃ as bs, List.Forall₂ (fun (i : Item) v => ∃ m, k < m ∧ i.2 m v) ((init ++ [last]).map fun p => (tk S p.pieces, TyOf E p)) as ∧
          List.Forall₂ (fun (i : Item) v => ∃ m, k < m ∧ i.2 m v) limItems bs ∧ vs = as ++ bs := forall₂_split hvs
      obtain ⟨ts, rfl, hts'⟩ := Forall₂_ty has
      have htl : ts.length = init.length + 1 := by rw [← hts'.length_eq]; simp
      have hne : ts ≠ [] := by intro h; rw [h] at htl; simp at htl
      obtain ⟨us, u, rfl⟩ : ∃ us u, ts = us ++ [u] := ⟨ts.dropLast, ts.getLast hne, (List.dropLast_append_getLast hne).symm⟩
      have lim : ∀ {x y : Option (BitVec 64)}, [limPc x] = [limPc y] → x = y := by
        intro x y h
        cases x <;> cases y <;> simp_all [limPc]
      have fin : ∀ {o : Option Ty}, (∃ t, o = some t ∧ ∀ v, WF v → Fits v → (instanceOf E.types t v = true ↔ TupleDen E init last (l.exactly (init.length + 1)) v)) →
          ∃ t, Text.orPanic o = .ok t ∧ ∃ t', PV.ty t = .ty t' ∧ ∀ v, WF v → Fits v → (instanceOf E.types t' v = true ↔ TupleDen E init last (l.exactly (init.length + 1)) v) := by
        rintro o ⟨t, rfl, h⟩
        exact ⟨t, rfl, t, rfl, h⟩
      show ∃ t, Text.orPanic (tupleFromArgs (.user k) _) = .ok t ∧ _
      refine fin ?_
      have hu : ∀ p ∈ init ++ [last], p.onlyUndef = false := fun p hp' => (hok p hp').2
      cases l with
      | all => exact absurd rfl hl
      | low lo =>
        simp only [limItems, Lim.args, List.map_cons, List.map_nil] at hbs
        cases hbs with
        | cons h1 h2 =>
          cases h2
          obtain ⟨m, hm, x, hx, rfl⟩ := h1
          obtain rfl := lim hx
          have ha : tupleFromArgs (.user k) ((us ++ [u]).map .ty ++ [limVal lo]) = tupleOf (.user k) ((us ++ [u]).map .ty)
              (if lo.getD (-1) = -1 then ((us ++ [u]).map PV.ty).length else (lo.getD (-1)).toInt) maxInt := by
            have hr : ((us ++ [u]).map PV.ty ++ [limVal lo]).reverse = limVal lo :: .ty u :: (us.map PV.ty).reverse := by simp
            have hu : (PV.ty u).int? (-1) = none := rfl
            unfold tupleFromArgs
            rw [hr]
            simp only [int_limVal, hu]
            simp
          rw [ha, List.length_map, htl]
          refine tupleOf_den hts' hu ?_
          simp only [Lim.exactly, false_iff, not_and]
          intro h1 h2
          omega
      | both lo hi =>
        simp only [limItems, Lim.args, List.map_cons, List.map_nil] at hbs
        cases hbs with
        | cons h1 h2 =>
          cases h2 with
          | cons h2 h3 =>
            cases h3
            obtain ⟨m, hm, x, hx, rfl⟩ := h1
            obtain ⟨m', hm', y, hy, rfl⟩ := h2
            obtain rfl := lim hx
            obtain rfl := lim hy
            have ha : tupleFromArgs (.user k) ((us ++ [u]).map .ty ++ [limVal lo, limVal hi]) = tupleOf (.user k) ((us ++ [u]).map .ty)
                (if lo.getD (-1) = -1 then ((us ++ [u]).map PV.ty).length else (lo.getD (-1)).toInt)
                (if hi.getD (-1) = -1 then ((us ++ [u]).map PV.ty).length else (hi.getD (-1)).toInt) := by
              unfold tupleFromArgs
              simp [int_limVal]
            rw [ha, List.length_map, htl]
            refine tupleOf_den hts' hu ?_
            rw [Lim.exactly, ← size_val, ← size_val]
            constructor
            · rintro ⟨h1, h2⟩; exact ⟨h1, h1.trans h2.symm⟩
            · rintro ⟨h1, h2⟩; exact ⟨h1, h2.symm.trans h1⟩
  obtain ⟨x, e, t, rfl, g⟩ := parseTokens_reads hr
  refine ⟨t, ?_, g⟩
  rw [parseType, parse_written hp hw hap hf, e]
  rfl

/-- `Tuple[Integer, String, default, 2]` has two elements; `Tuple[Integer, String, 1]` has an integer and any number of strings. -/
example (E : Env) : (Lim.both none (some 2)).exactly 2 ∧ ¬ (Lim.low (some 1)).exactly 2 ∧
    ∃ t, parseType E ((.name .tuple :: inBrackets ((([.integer .all] ++ [.stringAny] : List Pt)).map Pt.pieces ++ (Lim.both none (some 2)).args)).flatMap (Pc.text S1)) = .ok t ∧
      ∀ v, WF v → Fits v → (instanceOf E.types t v = true ↔ TupleDen E [.integer .all] .stringAny ((Lim.both none (some 2)).exactly 2) v) := by
  refine ⟨by simp [Lim.exactly], by simp [Lim.exactly], ?_⟩
  refine C62_tuple_sizes_partial S1_print (by simp) ?_ (by simp [maxInt]) ?_ (written_plain S1 _)
  · simp [Pt.Ok, Pt.onlyUndef, Lim.ordered]
  · simp [inBrackets, commas, Pt.pieces, Lim.args, args, limPc, Pc.Fine]

/-! ### C62: patterns in strings -/

/-- **C62, patterns in strings.**  `Pattern['r', …]` with strings is a pattern type with these regular expressions if all of them compile;
if one does not, the text is refused. -/
theorem C62_pattern_strings {S : SEnv} {E : Env} (hp : ∀ c < 32, S.isPrint c = false) {rs : List Str} (hne : rs ≠ [])
    (hf : ∀ r ∈ rs, (Pc.str r).Fine S E) {text : Str} (hw : Written S (.name .pattern :: inBrackets (rs.map fun r => [.str r])) text) :
    ((∀ r ∈ rs, E.compiles r = true) → ∃ t, parseType E text = .ok t ∧ ∀ v, WF v → Fits v →
      (instanceOf E.types t v = true ↔ ∃ s, v = .str s ∧ ∃ r ∈ rs, E.types.rx r s = true)) ∧
    ((∃ r ∈ rs, E.compiles r = false) → parseType E text = .error .badArgs) := by
  have hfs : ∀ c ∈ (.name .pattern :: inBrackets (rs.map fun r => [.str r]) : List Pc), c.Fine S E := by
    intro c hc
    rcases List.mem_cons.1 hc with rfl | hc
    · trivial
    rcases List.mem_cons.1 hc with rfl | hc
    · trivial
    rcases List.mem_append.1 hc with hc | hc
    · have : ∀ rs : List Str, (∀ r ∈ rs, (Pc.str r).Fine S E) → c ∈ commas (rs.map fun r => [.str r]) → c.Fine S E := ?_
      · exact this rs hf hc
      intro rs hf hc
      induction rs with
      | nil => cases hc
      | cons r rs ih =>
        have h1 := hf r List.mem_cons_self
        have ih := ih fun r hr => hf r (List.mem_cons_of_mem _ hr)
        cases rs with
        | nil => rw [List.mem_singleton.1 hc]; exact h1
        | cons r' rs =>
          rcases List.mem_cons.1 hc with rfl | hc
          · exact h1
          rcases List.mem_cons.1 hc with rfl | hc
          · trivial
          · exact ih hc
    · rw [List.mem_singleton.1 hc]; trivial
  have hap : Apart (.name .pattern :: inBrackets (rs.map fun r => [.str r])) := by
    refine apart_brackets _ fun a ha => ?_
    obtain ⟨p, _, rfl⟩ := List.mem_map.1 ha
    trivial
  rw [parseType, parse_written hp hw hap hfs]
  let items : List Item := rs.map fun s => (tk S [.str s], fun _ v => v = .val (.str s))
  have hi : ∀ i ∈ items, Reads E i.1 i.2 := by
    intro i hi
    obtain ⟨s, hs, rfl⟩ := List.mem_map.1 hi
    exact reads_str s
  have he : (rs.map fun r => [Pc.str r]).map (tk S) = items.map (·.1) := by simp [items]
  have hval : ∀ {k : Nat} {vs : List PV}, List.Forall₂ (fun (i : Item) v => ∃ m, k < m ∧ i.2 m v) items vs → vs = rs.map fun s => .val (.str s) :=
    fun h => Forall₂_const (fun s => .val (.str s)) (fun s => tk S [.str s]) h
  constructor
  · intro hc
    have hr : Reads E (tk S (.name .pattern :: inBrackets (rs.map fun r => [.str r]))) (TyOf E (.pattern rs)) := by
      refine reads_bracket rfl _ items he hi ?_
      intro k vs hvs
      rw [hval hvs]
      refine tyOf (panic_ok ?_)
      obtain ⟨t, h1, h2⟩ := good_pattern (E := E) (k := k) hne
      refine ⟨t, ?_, h2⟩
      rw [← h1, patternType, patternType]
      have : ∀ rs : List Str, (∀ r ∈ rs, E.compiles r = true) →
          allSome (PV.regexp? E) (rs.map fun s => .val (.str s)) = allSome (PV.regexp? E) (rs.map fun s => .val (.regexp s)) := by
        intro rs
        induction rs with
        | nil => intro _; rfl
        | cons r rs ih =>
          intro hc
          rw [List.map_cons, List.map_cons, allSome, allSome, ih fun r hr => hc r (List.mem_cons_of_mem _ hr)]
          simp [PV.regexp?, hc r List.mem_cons_self]
      rw [this rs hc]
      simp
    obtain ⟨x, e, t, rfl, g⟩ := parseTokens_reads hr
    refine ⟨t, by rw [e]; rfl, fun v hv hfv => ?_⟩
    rw [g.inst v hv hfv]
    simp only [Den]
  · rintro ⟨r, hr, hc⟩
    have hbad : patternType E (.user 1) (rs.map fun s => .val (.str s)) = none := by
      have : ∀ rs : List Str, r ∈ rs → allSome (PV.regexp? E) (rs.map fun s => .val (.str s)) = none := by
        intro rs
        induction rs with
        | nil => intro h; cases h
        | cons a rs ih =>
          intro h
          rw [List.map_cons, allSome]
          rcases List.mem_cons.1 h with rfl | h
          · simp [PV.regexp?, hc]
          · rw [ih h]
            cases PV.regexp? E (.val (.str a)) <;> rfl
      rw [patternType, this rs hr]
      simp
    have htk : tk S (.name .pattern :: inBrackets (rs.map fun r => [.str r])) ++ [⟨[], tEnd⟩] =
        ⟨Name.text .pattern, tName⟩ :: (tOpen :: (ctoks (items.map (·.1)) ++ [tClose]) ++ [(⟨[], tEnd⟩ : Token)]) := by
      show ⟨Name.text .pattern, tName⟩ :: (tk S (inBrackets (rs.map fun r => [.str r])) ++ [⟨[], tEnd⟩]) = _
      rw [tk_brackets, he]
    rw [htk]
    have hl : tOpen :: (ctoks (items.map (·.1)) ++ [tClose]) ++ [(⟨[], tEnd⟩ : Token)] = tOpen :: (ctoks (items.map (·.1)) ++ tClose :: [⟨[], tEnd⟩]) := by simp
    rw [hl, parseTokens, element]
    simp only [peek_cons, List.tail_cons, show tName ≠ 123 by decide, show tName ≠ 91 by decide, show tName ≠ tInteger by decide, show tName ≠ Text.tFloat by decide,
      show tName ≠ tIdentifier by decide, show tName ≠ tString by decide, show tName ≠ Text.tRegexp by decide, if_false, if_true]
    rw [pName]
    simp only [names_find]
    obtain ⟨vs, e, hvs⟩ := pList_reads (n := (tOpen :: (ctoks (items.map (·.1)) ++ tClose :: [(⟨[], tEnd⟩ : Token)])).length + 1) items hi [⟨[], tEnd⟩]
      (Nat.le_succ_of_le (Nat.le_succ _))
    rw [hval hvs] at e
    have hk : knownType E (element E ((tOpen :: (ctoks (items.map (·.1)) ++ tClose :: [(⟨[], tEnd⟩ : Token)])).length + 1)) .pattern
        (tOpen :: (ctoks (items.map (·.1)) ++ tClose :: [⟨[], tEnd⟩])) = .error .badArgs := by
      simp only [knownType, plainType, peek_cons, if_true, List.tail_cons]
      rw [e]
      show (Text.orPanic (patternType E (.user 1) _)).map _ = _
      rw [hbad]
      rfl
    simp only [List.length_cons] at hk ⊢
    rw [hk]

/-- `Pattern['a', 'b']`, if only `a` compiles -/
example : let E : Env := { E1 with compiles := fun s => s == w ['a'] }
    parseType E ((.name .pattern :: inBrackets ([w ['a'], w ['b']].map fun r => [.str r])).flatMap (Pc.text S1)) = .error .badArgs := by
  intro E
  refine (C62_pattern_strings (S := S1) (E := E) S1_print (by simp) ?_ (written_plain S1 _)).2 ⟨w ['b'], by simp, by decide +kernel⟩
  have hs : ∀ c : Nat, 32 ≤ c → c < 127 → Verif.Text.StrOk S1 (Verif.Text.textOf [c]) := by
    intro c h1 h2
    refine ⟨[c], ?_, rfl⟩
    intro x hx
    rw [List.mem_singleton.1 hx]
    refine ⟨⟨by unfold Verif.Text.Scalar; omega, by unfold Verif.Text.runeError; omega⟩, Or.inl ?_⟩
    show decide (32 ≤ c) = true
    simpa using h1
  intro r hr
  rcases List.mem_cons.1 hr with rfl | hr
  · exact hs 97 (by decide) (by decide)
  · rw [List.mem_singleton.1 hr]; exact hs 98 (by decide) (by decide)

/-! ### C63: entries -/

/-- **C63, an entry alone.**  The text `k => v` is read as the hash with that one entry. -/
theorem C63_entry_partial {S : SEnv} {E : Env} (hp : ∀ c < 32, S.isPrint c = false) {k v : Val} (hk : Literal E k) (hv : Literal E v)
    (hf : ∀ c ∈ valPieces k ++ .rocket :: valPieces v, c.Fine S E) {text : Str} (hw : Written S (valPieces k ++ .rocket :: valPieces v) text) :
    ∃ x, parse E text = .ok x ∧ x.toVal = some (.map [(k, v)]) := by
  obtain ⟨a, b, _, _, e, ha, hb⟩ := parseTokens_entry (reads_val k hk fun c hc => hf c (List.mem_append_left _ hc))
    (reads_val v hv fun c hc => hf c (List.mem_append_right _ (List.mem_cons_of_mem _ hc)))
  refine ⟨_, by rw [parse_written hp hw (apart_sep rfl (apart_val v) (apart_val k)) hf, tk_append]; exact e, ?_⟩
  rw [PV.toVal, toEntries, show a.toVal = some k from ha, show b.toVal = some v from hb]
  rfl

/-- `1 => 2` -/
example (E : Env) : ∃ x, parse E ((valPieces (.int 1) ++ .rocket :: valPieces (.int 2)).flatMap (Pc.text S1)) = .ok x ∧
    x.toVal = some (.map [(.int 1, .int 2)]) :=
  C63_entry_partial S1_print (k := .int 1) (v := .int 2) trivial trivial (by simp [valPieces, Pc.Fine]) (written_plain S1 _)

/-- **C63, entries in a list.**  In a list `[…]` every longest run of entries `k => v` is read as one hash at that place, with the keys in
the order in which they occur first and the last of the values given for a key. -/
theorem C63_entries_partial {S : SEnv} {E : Env} (hp : ∀ c < 32, S.isPrint c = false) {cs : List Cell} (hok : ∀ c ∈ cs, c.Ok E)
    (hf : ∀ c ∈ inBrackets (cs.map Cell.pieces), c.Fine S E) {text : Str} (hw : Written S (inBrackets (cs.map Cell.pieces)) text) :
    ∃ x vs, parse E text = .ok x ∧ x.toVal = some (.arr vs) ∧ Grouped cs vs := by
  obtain ⟨x, e, vs, hx, hg⟩ := parseTokens_reads (reads_cells (E := E) (S := S) cs hok fun c hc p hpp =>
    hf p (List.mem_cons_of_mem _ (List.mem_append_left _ (mem_commas (List.mem_map.2 ⟨c, hc, rfl⟩) hpp))))
  exact ⟨x, vs, by rw [parse_written hp hw (apart_cells cs) hf, e], hx, hg⟩

/-- `[0, 1 => 2, 3 => 4, 1 => 5, 6]` is `[0, {1 => 5, 3 => 4}, 6]`. -/
example : Grouped [.one (.int 0), .entry (.int 1) (.int 2), .entry (.int 3) (.int 4), .entry (.int 1) (.int 5), .one (.int 6)]
    [.int 0, .map [(.int 1, .int 5), (.int 3, .int 4)], .int 6] := by
  refine .one _ (.run [(.int 1, .int 2), (.int 3, .int 4), (.int 1, .int 5)] _ (by simp) (by simp [startsWithEntry]) ⟨?_, ?_⟩ (.one _ .nil))
  · simp [firsts, Value.eq]
  · intro e he
    simp only [List.mem_cons, List.not_mem_nil, or_false] at he
    rcases he with rfl | rfl
    · exact ⟨[(.int 1, .int 2), (.int 3, .int 4)], .int 1, [], rfl, by decide, by simp⟩
    · exact ⟨[(.int 1, .int 2)], .int 3, [(.int 1, .int 5)], rfl, by decide, by simp [Value.eq]⟩

example (E : Env) : ∃ x vs, parse E ((inBrackets ([.one (.int 0), .entry (.int 1) (.int 2), .entry (.int 1) (.int 5)].map Cell.pieces)).flatMap (Pc.text S1)) = .ok x ∧
    x.toVal = some (.arr vs) ∧ Grouped [.one (.int 0), .entry (.int 1) (.int 2), .entry (.int 1) (.int 5)] vs :=
  C63_entries_partial S1_print (by simp [Cell.Ok, Literal, Plain, WF]) (by simp [inBrackets, commas, Cell.pieces, valPieces, Pc.Fine]) (written_plain S1 _)

end Verif.Pcore
