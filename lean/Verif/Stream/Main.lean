import Verif.Stream.Sim
/-!
# Streaming a finite value to a collector or a decoder
-/
set_option autoImplicit false
set_option linter.unusedVariables false
set_option linter.unusedSimpArgs false
namespace Verif.Stream
open Verif.Value (Str)

section
variable {o : Options} {k : Consumer} {D : Option Decoder} {h : Heap} {root : Ref}

/-- What `emitData` does for an object that was not emitted before -/
def body (o : Options) (c : Consumer) (h : Heap) (n level : Nat) (x : Obj) (s : St) : Out (St × Ev) :=
  match x with
  | .arr es => (emitAll (emit o c h n level) (s.inc 1) es).map fun x => (x.1, .arr x.2)
  | .map es =>
    if plainMap c es then
      (emitEntries (emit o c h n (if level = 1 then 0 else level)) (emit o c h n level) (s.inc 1) es).map fun x => (x.1, .map x.2)
    else
      (emitEntries (emit o c h n 0) (emit o c h n level) (s.inc 5) es).map fun x => (x.1, tagged o.dialect o.dialect.map (.arr x.2))
  | .sens v =>
    if !o.rich then .panic
    else (emit o c h n level (s.inc 4) v).map fun x => (x.1, tagged o.dialect o.dialect.sensitive x.2)
  | .bin bs =>
    if c.binary then .ok (s.inc 1, .addBin bs)
    else if !o.rich then .panic
    else (emitString c level (s.inc 4) (Binary.text bs)).map fun x => (x.1, tagged o.dialect o.dialect.binary x.2)
  | .time t =>
    if c.time then .ok (s.inc 1, .addTime t)
    else if !o.rich then .panic
    else (emitString c level (s.inc 4) (o.timeText t)).map fun x => (x.1, tagged o.dialect o.dialect.time x.2)
  | .typ text =>
    match o.names with
    | none => .ok (s.inc 3, .map [.add (.str o.dialect.typeKey), .add (.str text)])
    | some names =>
      match names text with
      | none => .ok (s.inc 2, .map [.add (.str o.dialect.typeKey)])
      | some name =>
        (emitAll (fun s r => match r with
            | .atom (.str x) => emitString c level s x
            | _ => .panic) (s.inc 5) [.atom (.str name), .atom (.str text)]).map fun x =>
          (x.1, tagged o.dialect o.dialect.alias (.arr x.2))

theorem emit_obj (hs : Streamable o k h) (n lvl : Nat) (s : St) (p : Nat) {x : Obj} (hx : h p = some x) :
    emit o k h (n + 1) lvl s (.obj p) = process lvl s (.obj p) (body o k h n lvl x) := by
  cases x with
  | map es =>
    simp only [emit, hx]
    cases hpl : plainMap k es with
    | true =>
      have h1 : (k.complexKeys || stringKeys es) = true := hpl
      rw [if_pos h1, hs.noRef p es hx hpl]
      show process _ _ _ _ = _
      congr 1; funext s; simp only [body, hpl, if_true]
    | false =>
      have h1 : ¬(k.complexKeys || stringKeys es) = true := by
        intro e; have : plainMap k es = true := e; rw [hpl] at this; cases this
      have h2 : o.rich = true := by
        rcases hs.rich with h2 | h2
        · exact h2
        · obtain ⟨_, e⟩ := h2 p _ hx (by simp [isRich, hpl]); cases e
      rw [if_neg h1, h2]
      simp only [Bool.not_true, Bool.false_eq_true, if_false]
      congr 1; funext s; simp only [body, hpl, Bool.not_true, Bool.false_eq_true, if_false]
  | _ => simp only [emit, hx]; rfl

/-! ## Arrays and maps are started and filled -/

/-- The collector after an array or a map was started -/
def Coll.start (c : Coll) : Coll := (c.new none).push (.obj c.cells.length)

theorem start_le (c : Coll) : Le c c.start := (Le.new c none).trans (Le.push _ _)

theorem start_len (c : Coll) : c.start.values.length = c.values.length + 1 := by simp [Coll.start, Coll.push, Coll.new]

theorem start_get (c : Coll) : c.start.values[c.values.length]? = some (.obj c.cells.length) := by simp [Coll.start, Coll.push, Coll.new]

theorem start_pending {c c' : Coll} (hl : Le c.start c') : c'.heap c.cells.length = none := by
  have : c.start.cells[c.cells.length]? = some none := by simp [Coll.start, Coll.push, Coll.new]
  unfold Coll.heap
  rw [prefix_get hl.cells this]
  rfl

theorem fill_le {c c2 : Coll} (x : Obj) (hl : Le c.start c2) :
    Le c (c2.fill c.cells.length x) ∧ Sub c2.heap (c2.fill c.cells.length x).heap
      ∧ (c2.fill c.cells.length x).heap c.cells.length = some x :=
  Le.fill (c1 := c.start) rfl hl (start_le c).values

theorem collect_arr {F : Nat} {c c2 : Coll} {evs : List Ev} {rs : List Ref} (hc : collectAll D F c.start evs = .ok (c2, rs)) :
    collect D F c (.arr evs) = .ok (c2.fill c.cells.length (.arr rs), .obj c.cells.length) := by
  rw [collect]
  have : collectAll D F ((c.new none).push (.obj c.cells.length)) evs = .ok (c2, rs) := hc
  simp only [this]

theorem collect_map {F : Nat} {c c2 : Coll} {evs : List Ev} {rs : List Ref} (hc : collectAll D F c.start evs = .ok (c2, rs)) :
    collect D F c (.map evs) =
      match D with
      | none => .ok (c2.fill c.cells.length (.map (toPairs rs)), .obj c.cells.length)
      | some D =>
        match getStr D.dialect.typeKey (toPairs rs) with
        | some (.atom (.str ts)) => decode D F (c2.fill c.cells.length (.map (toPairs rs))) c.cells.length (toPairs rs) ts
        | _ => .ok (c2.fill c.cells.length (.map (toPairs rs)), .obj c.cells.length) := by
  rw [collect]
  have : collectAll D F ((c.new none).push (.obj c.cells.length)) evs = .ok (c2, rs) := hc
  simp only [this]
  cases D <;> rfl

/-- The condition on the places of rich objects, for the children of an object -/
def RSeq (k : Consumer) (D : Option Decoder) (h : Heap) (root : Ref) (s : St) (rs : List (Nat × Ref)) : Prop :=
  (∀ e ∈ rs, e.1 = 0) ∨ (RInv k D h root s ∧ (∀ p, Rich D k h p → Ref.obj p ∈ rs.map (·.2) → ¬Kd s p)
    ∧ ∃ w x, Kd s w ∧ h w = some x ∧ rs.map (·.2) <:+ slots x)

theorem arr_sim {n : Nat} (hP : P o k D h root n) {m : Nat} (hm : n ≤ m) {lvl : Nat}
    {rs : List (Nat × Ref)} {ts : List T} (hd : denAll (den h n) (rs.map (·.2)) = some ts) (hz : lvl = 0 → ∀ e ∈ rs, e.1 = 0)
    {s : St} {c : Coll} (hl : Link s c) (hdn : Done o k D h n s c) (hR : RSeq k D h root s rs) :
    ∃ s' evs c' rs' F0, emitSeq o k h m (s.inc 1) rs = .ok (s', evs) ∧ (∀ F, F0 ≤ F → collect D F c (.arr evs) = .ok (c', .obj c.cells.length))
      ∧ Step o k D h lvl s c s' c' ∧ c'.heap c.cells.length = some (.arr rs') ∧ IsAll c'.heap rs' (ts.map (view D o k))
      ∧ RPost k D h s (rs.map (·.2)) s' ∧ c'.values[c.values.length]? = some (.obj c.cells.length) := by
  obtain ⟨s', evs, c2, rs', F0, he, hc, hst, his, hrp⟩ :=
    seq_sim hP hm lvl rs ts hd hz (s.inc 1) c.start (hl.inc (start_le c).values (start_len c)) (hdn.inc (start_le c)) hR
  obtain ⟨h1, h2, h3⟩ := fill_le (.arr rs') hst.le
  exact ⟨s', evs, c2.fill c.cells.length (.arr rs'), rs', F0, he, fun F hF => collect_arr (hc F hF), hst.wrap h1 h2 rfl, h3, his.mono h2, hrp,
    (hst.le.get (start_get c))⟩

/-- The result of the emission of an object with the value `t` -/
def BodySim (o : Options) (k : Consumer) (D : Option Decoder) (h : Heap) (x : Obj) (lvl : Nat) (s : St) (c : Coll) (run : Out (St × Ev))
    (t : T) : Prop :=
  ∃ s' ev c' r' F0, run = .ok (s', ev) ∧ (∀ F, F0 ≤ F → collect D F c ev = .ok (c', r')) ∧ Step o k D h lvl s c s' c'
    ∧ Is c'.heap r' (view D o k t) ∧ (sel D k x = false → c'.values[c.values.length]? = some r') ∧ RPost k D h s (slots x) s'

theorem body_arr {n : Nat} (hP : P o k D h root n) {m : Nat} (hm : n ≤ m) {lvl : Nat}
    {es : List Ref} {t : T} (hd : (denAll (den h n) es).map T.arr = some t)
    {s : St} {c : Coll} (hl : Link s c) (hdn : Done o k D h n s c)
    (hR : RSeq k D h root s (es.map fun r => (lvl, r))) : BodySim o k D h (.arr es) lvl s c (body o k h m lvl (.arr es) s) t := by
  rw [Option.map_eq_some_iff] at hd
  obtain ⟨ts, hts, rfl⟩ := hd
  have e1 : (es.map fun r => (lvl, r)).map (fun e : Nat × Ref => e.2) = es := by
    rw [List.map_map]; exact List.map_id es
  obtain ⟨s', evs, c', rs', F0, he, hc, hst, hh, his, hrp, hv⟩ :=
    arr_sim hP hm (rs := es.map fun r => (lvl, r)) (ts := ts) (by rw [e1]; exact hts)
      (fun e x hx => by obtain ⟨y, _, rfl⟩ := List.mem_map.mp hx; exact e) hl hdn hR
  refine ⟨s', .arr evs, c', .obj c.cells.length, F0, ?_, hc, hst, ?_, fun _ => hv, ?_⟩
  · simp only [body, emitAll_seq, he]; rfl
  · rw [view_arr]; exact Is.arr hh his
  · rw [e1] at hrp; exact hrp

theorem getStr_mem {x : Str} {v : Ref} : ∀ {es : List (Ref × Ref)}, getStr x es = some v → (Ref.atom (.str x), v) ∈ es
  | [], he => by simp [getStr] at he
  | (a, b) :: es, he => by
    simp only [getStr] at he
    split at he
    · rename_i e; subst e; cases he; exact List.mem_cons_self
    · exact List.mem_cons_of_mem _ (getStr_mem he)

/-- An entry of the result with string key and string value comes from such an entry. -/
theorem entries_back {h' : Heap} {m : Nat} : ∀ {es : List (Ref × Ref)} {ts : List (T × T)} {n : Nat} {rs : List Ref}, denEntries (den h n) es = some ts →
    denAll (den h' m) rs = some (flatten ts) → ∀ a b, (Ref.atom (.str a), Ref.atom (.str b)) ∈ toPairs rs →
      (Ref.atom (.str a), Ref.atom (.str b)) ∈ es
  | [], ts, n, rs, hd, hr, a, b, hm => by
    simp only [denEntries, Option.some.injEq] at hd
    subst hd
    cases rs with
    | nil => simp [toPairs] at hm
    | cons r rs => 
      simp only [denAll, flatten, List.flatMap_nil] at hr
      split at hr <;> simp at hr
  | (x, y) :: es, ts, n, rs, hd, hr, a, b, hm => by
    simp only [denEntries] at hd
    cases hx : den h n x with
    | none => simp [hx] at hd
    | some t =>
      cases hy : den h n y with
      | none => simp [hx, hy] at hd
      | some t' =>
        cases hs : denEntries (den h n) es with
        | none => simp [hx, hy, hs] at hd
        | some ts' =>
          simp only [hx, hy, hs, Option.some.injEq] at hd
          subst hd
          have e : flatten ((t, t') :: ts') = t :: t' :: flatten ts' := rfl
          rw [e] at hr
          cases rs with
          | nil => simp [denAll] at hr
          | cons r rs =>
            cases rs with
            | nil =>
              simp only [denAll] at hr
              cases hr1 : den h' m r <;> simp [hr1] at hr
            | cons r' rs =>
              simp only [denAll] at hr
              cases hr1 : den h' m r with
              | none => simp [hr1] at hr
              | some u =>
                cases hr2 : den h' m r' with
                | none => simp [hr1, hr2] at hr
                | some u' =>
                  cases hr3 : denAll (den h' m) rs with
                  | none => simp [hr1, hr2, hr3] at hr
                  | some us =>
                    simp only [hr1, hr2, hr3, Option.some.injEq, List.cons.injEq] at hr
                    obtain ⟨rfl, rfl, rfl⟩ := hr
                    simp only [toPairs] at hm
                    rcases List.mem_cons.mp hm with h1 | h1
                    · simp only [Prod.mk.injEq] at h1
                      obtain ⟨rfl, rfl⟩ := h1
                      have hu : u = .str a := (Option.some.inj ((den_str.mpr rfl : den h' m (.atom (.str a)) = _).symm.trans hr1)).symm
                      have hu' : u' = .str b := (Option.some.inj ((den_str.mpr rfl : den h' m (.atom (.str b)) = _).symm.trans hr2)).symm
                      subst hu; subst hu'
                      rw [den_str.mp hx, den_str.mp hy]
                      exact List.mem_cons_self
                    · exact List.mem_cons_of_mem _ (entries_back hs hr3 a b h1)

theorem map_snd_flat (lk lv : Nat) : ∀ es : List (Ref × Ref),
    (es.flatMap fun e => [(lk, e.1), (lv, e.2)]).map (fun e : Nat × Ref => e.2) = flatten es
  | [] => rfl
  | e :: es => by
    show e.1 :: e.2 :: (es.flatMap fun e => [(lk, e.1), (lv, e.2)]).map (fun e : Nat × Ref => e.2) = e.1 :: e.2 :: flatten es
    rw [map_snd_flat lk lv es]

theorem body_plain {n : Nat} (hP : P o k D h root n) {m : Nat} (hm : n ≤ m) {lvl w : Nat}
    {es : List (Ref × Ref)} {t : T} (hw : h w = some (.map es)) (hd : (denEntries (den h n) es).map T.map = some t) (hpl : plainMap k es = true)
    (hdec : ∀ d, D = some d → Decodable o k d h)
    {s : St} {c : Coll} (hl : Link s c) (hdn : Done o k D h n s c)
    (hR : RSeq k D h root s (es.flatMap fun e => [(if lvl = 1 then 0 else lvl, e.1), (lvl, e.2)])) :
    BodySim o k D h (.map es) lvl s c (body o k h m lvl (.map es) s) t := by
  rw [Option.map_eq_some_iff] at hd
  obtain ⟨ts, hts, rfl⟩ := hd
  have e1 := map_snd_flat (if lvl = 1 then 0 else lvl) lvl es
  obtain ⟨s', evs, c2, rs', F0, he, hc, hst, his, hrp⟩ :=
    seq_sim hP hm lvl (es.flatMap fun e : Ref × Ref => [(if lvl = 1 then 0 else lvl, e.1), (lvl, e.2)]) (flatten ts)
      (by rw [e1]; exact denAll_entries.mp hts)
      (fun e x hx => by
        obtain ⟨y, _, hy⟩ := List.mem_flatMap.mp hx
        rcases List.mem_cons.mp hy with rfl | hy
        · simp [e]
        · simp only [List.mem_singleton] at hy; rw [hy]; exact e)
      (s.inc 1) c.start (hl.inc (start_le c).values (start_len c)) (hdn.inc (start_le c)) hR
  obtain ⟨h1, h2, h3⟩ := fill_le (.map (toPairs rs')) hst.le
  have hb : body o k h m lvl (.map es) s = .ok (s', .map evs) := by
    simp only [body, hpl, if_true, emitEntries_seq, he]; rfl
  have hcol : ∀ F, F0 ≤ F → collect D F c (.map evs) = .ok (c2.fill c.cells.length (.map (toPairs rs')), .obj c.cells.length) := by
    intro F hF
    rw [collect_map (hc F hF)]
    cases D with
    | none => rfl
    | some d =>
      dsimp only
      split
      · rename_i ts' hg
        exfalso
        have hmem := getStr_mem hg
        have hdd := hdec d rfl
        rw [hdd.dialect] at hmem
        obtain ⟨q, hq⟩ := his
        have e2 : (flatten ts).map (view (some d) o k) = flatten ts := by
          have : view (some d) o k = id := by funext t; simp [view]
          rw [this, List.map_id]
        rw [e2] at hq
        have := entries_back hts hq _ _ hmem
        exact hdd.noType w es _ ts' hw hpl this rfl
      · rfl
  refine ⟨s', .map evs, _, .obj c.cells.length, F0, hb, hcol, hst.wrap h1 h2 rfl, ?_, fun _ => hst.le.get (start_get c), ?_⟩
  · rw [view_plain D o k ts (by rw [stringKeys_den hts]; exact hpl)]
    refine Is.map h3 ?_
    rw [← map_flatten]
    exact his.mono h2
  · rw [e1] at hrp; exact hrp

/-! ## Values with their type -/

/-- The collector when the value of a tagged map is about to be added -/
def Coll.tag (c : Coll) (d : Dialect) (name : Str) : Coll :=
  ((c.start.push (.atom (.str d.typeKey))).push (.atom (.str name))).push (.atom (.str d.valueKey))

theorem tag_le (c : Coll) (d : Dialect) (name : Str) : Le c.start (c.tag d name) :=
  ((Le.push _ _).trans (Le.push _ _)).trans (Le.push _ _)

theorem tag_len (c : Coll) (d : Dialect) (name : Str) : (c.tag d name).values.length = c.values.length + 4 := by
  simp [Coll.tag, Coll.start, Coll.push, Coll.new]

theorem collect_tagged {F : Nat} {c c2 : Coll} {d : Dialect} {name : Str} {ev : Ev} {r : Ref} (hdd : ∀ x, D = some x → x.dialect = d)
    (hc : collect D F (c.tag d name) ev = .ok (c2, r)) :
    collect D F c (tagged d name ev) =
      match D with
      | none => .ok (c2.fill c.cells.length (.map (tagEntries d name r)), .obj c.cells.length)
      | some x => decode x F (c2.fill c.cells.length (.map (tagEntries d name r))) c.cells.length (tagEntries d name r) name := by
  have h1 : collectAll D F c.start [.add (.str d.typeKey), .add (.str name), .add (.str d.valueKey), ev]
      = .ok (c2, [.atom (.str d.typeKey), .atom (.str name), .atom (.str d.valueKey), r]) := by
    have hc' : collect D F (((c.start.push (.atom (.str d.typeKey))).push (.atom (.str name))).push (.atom (.str d.valueKey))) ev = .ok (c2, r) := hc
    simp only [collectAll, collect, hc']
  unfold tagged
  rw [collect_map h1]
  cases D with
  | none => rfl
  | some x =>
    have : getStr x.dialect.typeKey (tagEntries d name r) = some (.atom (.str name)) := by
      rw [hdd x rfl]; simp [tagEntries, getStr]
    have e : toPairs [Ref.atom (.str d.typeKey), .atom (.str name), .atom (.str d.valueKey), r] = tagEntries d name r := rfl
    simp only [e, this]

theorem tag_value {d : Dialect} (hd : d.Sound) (name : Str) (r : Ref) : getStr d.valueKey (tagEntries d name r) = some r := by
  simp [tagEntries, getStr, hd.keys]

theorem is_tagged {c2 : Coll} {c : Coll} {d : Dialect} {name : Str} {r : Ref} {t : T} (hl : Le c.start c2) (hi : Is c2.heap r t) :
    Is (c2.fill c.cells.length (.map (tagEntries d name r))).heap (.obj c.cells.length) (T.tagged d name t) := by
  obtain ⟨h1, h2, h3⟩ := fill_le (.map (tagEntries d name r)) hl
  refine Is.map (rs := [.atom (.str d.typeKey), .atom (.str name), .atom (.str d.valueKey), r]) h3 ?_
  exact .cons (Is.atom _ (.str d.typeKey)) (.cons (Is.atom _ (.str name)) (.cons (Is.atom _ (.str d.valueKey)) (.cons (hi.mono h2) (.nil _))))

/-- The general case: the value `ev` of a tagged map has been collected; `D` decodes the map. -/
theorem tagged_sim {lvl : Nat} {s s' : St} {c c2 : Coll} {x : Obj} {name : Str} {ev : Ev} {r : Ref} {F0 : Nat} {t tv : T}
    (hdd : ∀ x, D = some x → x.dialect = o.dialect)
    (hsel : isRich k x = true)
    (hc : ∀ F, F0 ≤ F → collect D F (c.tag o.dialect name) ev = .ok (c2, r))
    (hst : Step o k D h lvl (s.inc 4) (c.tag o.dialect name) s' c2)
    (hi : Is c2.heap r tv)
    (henc : D = none → view D o k t = T.tagged o.dialect name tv)
    (hdec : ∀ d, D = some d → ∃ cf rf F1, (∀ F, F1 ≤ F → decode d F (c2.fill c.cells.length (.map (tagEntries o.dialect name r))) c.cells.length
      (tagEntries o.dialect name r) name = .ok (cf, rf)) ∧ Le (c2.fill c.cells.length (.map (tagEntries o.dialect name r))) cf
        ∧ cf.values = c2.values ∧ Is cf.heap rf t)
    (hrp : RPost k D h s (slots x) s') :
    BodySim o k D h x lvl s c (.ok (s', tagged o.dialect name ev)) t := by
  have hle : Le c.start c2 := (tag_le c o.dialect name).trans hst.le
  obtain ⟨h1, h2, h3⟩ := fill_le (.map (tagEntries o.dialect name r)) hle
  cases D with
  | none =>
    refine ⟨s', _, _, .obj c.cells.length, F0, rfl, fun F hF => collect_tagged hdd (hc F hF), hst.wrap h1 h2 rfl, ?_, ?_, hrp⟩
    · rw [henc rfl]; exact is_tagged hle hi
    · intro _; exact hle.get (start_get c)
  | some d =>
    obtain ⟨cf, rf, F1, hd1, hd2, hd3, hd4⟩ := hdec d rfl
    refine ⟨s', _, cf, rf, max F0 F1, rfl, fun F hF => ?_, ?_, ?_, ?_, hrp⟩
    · rw [collect_tagged hdd (hc F (by omega))]
      exact hd1 F (by omega)
    · refine hst.wrap (h1.trans hd2) ?_ hd3
      exact fun p y hy => hd2.heap p y (h2 p y hy)
    · simpa [view] using hd4
    · intro e; simp [sel, hsel] at e

theorem body_sens {n : Nat} (hP : P o k D h root n) {m : Nat} (hm : n ≤ m) (hsd : o.dialect.Sound)
    {lvl : Nat}
    {v : Ref} {t : T} (hd : (den h n v).map T.sens = some t) (hrich : o.rich = true) (hdd : ∀ x, D = some x → x.dialect = o.dialect)
    {s : St} {c : Coll} (hl : Link s c) (hdn : Done o k D h n s c)
    (hR : lvl = 0 ∨ (RInv k D h root s ∧ Src h root s v ∧ ∀ p, Rich D k h p → v = .obj p → ¬Kd s p)) :
    BodySim o k D h (.sens v) lvl s c (body o k h m lvl (.sens v) s) t := by
  rw [Option.map_eq_some_iff] at hd
  obtain ⟨tv, htv, rfl⟩ := hd
  have hle := (start_le c).trans (tag_le c o.dialect o.dialect.sensitive)
  obtain ⟨s', ev, c2, r', F0, he, hc, hst, his, hrp⟩ := hP m hm v tv htv lvl (s.inc 4) (c.tag o.dialect o.dialect.sensitive)
    (hl.inc hle.values (tag_len c _ _)) (hdn.inc hle) hR
  have hb : body o k h m lvl (.sens v) s = .ok (s', tagged o.dialect o.dialect.sensitive ev) := by
    simp only [body, hrich, Bool.not_true, Bool.false_eq_true, if_false, he]; rfl
  rw [hb]
  refine tagged_sim hdd rfl hc hst his ?_ ?_ hrp
  · intro e; subst e; simp only [view, Option.isSome_none, Bool.false_eq_true, if_false, enc]
  · intro d e
    have hdl := hdd d e
    subst e
    refine ⟨_, .obj (c2.fill c.cells.length (.map (tagEntries o.dialect o.dialect.sensitive r'))).cells.length, 0, fun F _ => ?_, Le.new _ (some (.sens r')), rfl, ?_⟩
    · have h0 : ¬((tagEntries o.dialect o.dialect.sensitive r').length = 1) := by simp [tagEntries]
      simp only [decode, if_neg h0, hdl, tag_value hsd, if_neg hsd.sens, if_true, Coll.result]
    · obtain ⟨h1, h2, h3⟩ := fill_le (.map (tagEntries o.dialect o.dialect.sensitive r')) ((tag_le c o.dialect o.dialect.sensitive).trans hst.le)
      refine Is.sens (new_heap _ _) ?_
      have := his.mono (h2)
      have := this.mono (Le.new (c2.fill c.cells.length (.map (tagEntries o.dialect o.dialect.sensitive r'))) (some (.sens r'))).heap
      simpa [view] using this

theorem body_bin {m lvl : Nat} (hsd : o.dialect.Sound) {bs : List UInt8} (hrich : k.binary = true ∨ o.rich = true)
    (hdd : ∀ x, D = some x → x.dialect = o.dialect)
    {s : St} {c : Coll} (hl : Link s c) :
    BodySim o k D h (.bin bs) lvl s c (body o k h m lvl (.bin bs) s) (.bin bs) := by
  cases hb : k.binary with
  | true =>
    refine ⟨s.inc 1, .addBin bs, (c.new (some (.bin bs))).push (.obj c.cells.length), .obj c.cells.length, 0, ?_, ?_, ?_, ?_, ?_, ?_⟩
    · simp only [body, hb, if_true]
    · intro F _; rw [collect]
    · exact ⟨hl.inc ((Le.new c _).trans (Le.push _ _)).values (by simp [Coll.push, Coll.new]), (Le.new c _).trans (Le.push _ _),
        fun p i hm => .inl hm, fun e he => he, fun _ => rfl⟩
    · have : view D o k (.bin bs) = .bin bs := by unfold view; split <;> simp [enc, hb]
      rw [this]
      refine ⟨1, ?_⟩
      have h1 : ((c.new (some (.bin bs))).push (.obj c.cells.length)).heap c.cells.length = some (.bin bs) := new_heap c _
      simp only [den, h1]
    · intro _; simp [Coll.push, Coll.new]
    · exact fun p _ hk => .inl hk
  | false =>
    have hr : o.rich = true := by rcases hrich with h1 | h1
                                  · rw [hb] at h1; cases h1
                                  · exact h1
    have hle := (start_le c).trans (tag_le c o.dialect o.dialect.binary)
    obtain ⟨s', ev, c2, he, hc, hst, hk⟩ := string_sim (o := o) (k := k) (D := D) (h := h) (lvl := lvl)
      (hl.inc hle.values (tag_len c o.dialect o.dialect.binary)) (Binary.text bs)
    have hb' : body o k h m lvl (.bin bs) s = .ok (s', tagged o.dialect o.dialect.binary ev) := by
      simp only [body, hb, hr, Bool.not_true, Bool.false_eq_true, if_false, he]; rfl
    rw [hb']
    refine tagged_sim (F0 := 0) hdd (by simp [isRich, hb]) (fun F _ => hc F) hst (Is.atom _ _) ?_ ?_ (fun p _ hp => .inl (hk p hp))
    · intro e; subst e; simp [view, enc, hb, T.ofAtom]
    · intro d e
      have hdl := hdd d e
      subst e
      refine ⟨_, .obj (c2.fill c.cells.length (.map (tagEntries o.dialect o.dialect.binary (.atom (.str (Binary.text bs)))))).cells.length, 0, fun F _ => ?_, Le.new _ (some (.bin bs)), rfl, ?_⟩
      · have h0 : ¬((tagEntries o.dialect o.dialect.binary (.atom (.str (Binary.text bs)))).length = 1) := by simp [tagEntries]
        have h1 : Binary.fromEncoded .B (Binary.text bs) = some bs := Binary.decode_encode .std true bs
        simp only [decode, if_neg h0, hdl, tag_value hsd, if_neg hsd.bin.1, if_neg hsd.bin.2, if_true, Coll.result, h1]
      · refine ⟨1, ?_⟩
        simp only [den, new_heap]

theorem body_time {m lvl : Nat} (hsd : o.dialect.Sound) {t : Int} (hrich : k.time = true ∨ o.rich = true)
    (hdd : ∀ x, D = some x → x.dialect = o.dialect) (ht : ∀ x, D = some x → x.parseTime (o.timeText t) = some t)
    {s : St} {c : Coll} (hl : Link s c) :
    BodySim o k D h (.time t) lvl s c (body o k h m lvl (.time t) s) (.time t) := by
  cases hb : k.time with
  | true =>
    refine ⟨s.inc 1, .addTime t, (c.new (some (.time t))).push (.obj c.cells.length), .obj c.cells.length, 0, ?_, ?_, ?_, ?_, ?_, ?_⟩
    · simp only [body, hb, if_true]
    · intro F _; rw [collect]
    · exact ⟨hl.inc ((Le.new c _).trans (Le.push _ _)).values (by simp [Coll.push, Coll.new]), (Le.new c _).trans (Le.push _ _),
        fun p i hm => .inl hm, fun e he => he, fun _ => rfl⟩
    · have : view D o k (.time t) = .time t := by unfold view; split <;> simp [enc, hb]
      rw [this]
      refine ⟨1, ?_⟩
      have h1 : ((c.new (some (.time t))).push (.obj c.cells.length)).heap c.cells.length = some (.time t) := new_heap c _
      simp only [den, h1]
    · intro _; simp [Coll.push, Coll.new]
    · exact fun p _ hk => .inl hk
  | false =>
    have hr : o.rich = true := by rcases hrich with h1 | h1
                                  · rw [hb] at h1; cases h1
                                  · exact h1
    have hle := (start_le c).trans (tag_le c o.dialect o.dialect.time)
    obtain ⟨s', ev, c2, he, hc, hst, hk⟩ := string_sim (o := o) (k := k) (D := D) (h := h) (lvl := lvl)
      (hl.inc hle.values (tag_len c o.dialect o.dialect.time)) (o.timeText t)
    have hb' : body o k h m lvl (.time t) s = .ok (s', tagged o.dialect o.dialect.time ev) := by
      simp only [body, hb, hr, Bool.not_true, Bool.false_eq_true, if_false, he]; rfl
    rw [hb']
    refine tagged_sim (F0 := 0) hdd (by simp [isRich, hb]) (fun F _ => hc F) hst (Is.atom _ _) ?_ ?_ (fun p _ hp => .inl (hk p hp))
    · intro e; subst e; simp [view, enc, hb, T.ofAtom]
    · intro d e
      have hdl := hdd d e
      have htt := ht d e
      subst e
      refine ⟨_, .obj (c2.fill c.cells.length (.map (tagEntries o.dialect o.dialect.time (.atom (.str (o.timeText t)))))).cells.length, 0, fun F _ => ?_, Le.new _ (some (.time t)), rfl, ?_⟩
      · have h0 : ¬((tagEntries o.dialect o.dialect.time (.atom (.str (o.timeText t)))).length = 1) := by simp [tagEntries]
        simp only [decode, if_neg h0, hdl, tag_value hsd, if_neg hsd.time.1, if_neg hsd.time.2.1, if_neg hsd.time.2.2, if_true, Coll.result, htt]
      · refine ⟨1, ?_⟩
        simp only [den, new_heap]

theorem body_typ {m lvl : Nat} (hsd : o.dialect.Sound) {x : Str} (hnm : ∀ names, o.names = some names → names x ≠ none)
    (hdd : ∀ x, D = some x → x.dialect = o.dialect) (ht : ∀ d, D = some d → d.parseType x = some x)
    {s : St} {c : Coll} (hl : Link s c) :
    BodySim o k D h (.typ x) lvl s c (body o k h m lvl (.typ x) s) (.typ x) := by
  cases hn : o.names with
  | none =>
    have hb : body o k h m lvl (.typ x) s = .ok (s.inc 3, .map [.add (.str o.dialect.typeKey), .add (.str x)]) := by
      simp only [body, hn]
    rw [hb]
    have hle : Le c.start ((c.start.push (.atom (.str o.dialect.typeKey))).push (.atom (.str x))) := (Le.push _ _).trans (Le.push _ _)
    have hc : ∀ F, collectAll D F c.start [.add (.str o.dialect.typeKey), .add (.str x)]
        = .ok ((c.start.push (.atom (.str o.dialect.typeKey))).push (.atom (.str x)), [.atom (.str o.dialect.typeKey), .atom (.str x)]) := by
      intro F; simp only [collectAll, collect]
    generalize hc2 : (c.start.push (.atom (.str o.dialect.typeKey))).push (.atom (.str x)) = c2 at hle hc
    have hlen : c2.values.length = c.values.length + 3 := by subst hc2; simp [Coll.push, Coll.start, Coll.new]
    obtain ⟨h1, h2, h3⟩ := fill_le (.map [(.atom (.str o.dialect.typeKey), .atom (.str x))]) hle
    have hst : Step o k D h lvl s c (s.inc 3) (c2.fill c.cells.length (.map [(.atom (.str o.dialect.typeKey), .atom (.str x))])) :=
      ⟨hl.inc h1.values hlen, h1, fun p i hm => .inl hm, fun e he => he, fun _ => rfl⟩
    cases hD : D with
    | none =>
      subst hD
      refine ⟨_, _, _, .obj c.cells.length, 0, rfl, fun F _ => collect_map (hc F), hst, ?_, ?_, fun p _ hk => .inl hk⟩
      · have : view none o k (.typ x) = .map [(.str o.dialect.typeKey, .str x)] := by simp [view, enc, hn]
        rw [this]
        exact Is.map (rs := [.atom (.str o.dialect.typeKey), .atom (.str x)]) h3
          (.cons (Is.atom _ (.str o.dialect.typeKey)) (.cons (Is.atom _ (.str x)) (.nil _)))
      · intro _; exact hle.get (start_get c)
    | some d =>
      subst hD
      refine ⟨_, _, _, .obj (c2.fill c.cells.length (.map [(.atom (.str o.dialect.typeKey), .atom (.str x))])).cells.length, 0, rfl,
        fun F _ => ?_, ⟨?_, hst.le.trans (Le.new _ (some (.typ x))), fun p i hm => .inl hm, fun e he => he, fun _ => rfl⟩, ?_, ?_, fun p _ hk => .inl hk⟩
      · rw [collect_map (hc F)]
        have e1 : toPairs [Ref.atom (.str o.dialect.typeKey), .atom (.str x)] = [(.atom (.str o.dialect.typeKey), .atom (.str x))] := rfl
        have e2 : getStr d.dialect.typeKey [(Ref.atom (.str o.dialect.typeKey), Ref.atom (.str x))] = some (.atom (.str x)) := by
          rw [hdd d rfl]; simp [getStr]
        simp only [e1, e2, decode, List.length_cons, List.length_nil, if_true, ht d rfl, Coll.result]
      · exact ⟨hst.link.idx, hst.link.strs⟩
      · refine ⟨1, ?_⟩
        simp [den, new_heap, view]
      · intro e; simp [sel, isRich] at e
  | some names =>
    cases hx : names x with
    | none => exact absurd hx (hnm names hn)
    | some name =>
      have hle := (start_le c).trans (tag_le c o.dialect o.dialect.alias)
      have hl0 := hl.inc hle.values (tag_len c o.dialect o.dialect.alias)
      have hl1 := hl0.inc (start_le (c.tag o.dialect o.dialect.alias)).values (start_len (c.tag o.dialect o.dialect.alias))
      obtain ⟨s1, ev1, c1, he1, hc1, hst1, hk1⟩ := string_sim (o := o) (k := k) (D := D) (h := h) (lvl := lvl) hl1 name
      obtain ⟨s2, ev2, c2, he2, hc2, hst2, hk2⟩ := string_sim (o := o) (k := k) (D := D) (h := h) (lvl := lvl) hst1.link x
      have hst12 := hst1.trans (lvl := lvl) hst2 (fun e => e) (fun e => e)
      have hb : body o k h m lvl (.typ x) s = .ok (s2, tagged o.dialect o.dialect.alias (.arr [ev1, ev2])) := by
        have e1 : emitString k lvl (s.inc 5) name = .ok (s1, ev1) := he1
        simp only [body, hn, hx, emitAll, e1, he2]
        rfl
      rw [hb]
      obtain ⟨h1, h2, h3⟩ := fill_le (.arr [.atom (.str name), .atom (.str x)]) hst12.le
      have hca : ∀ F, collect D F (c.tag o.dialect o.dialect.alias) (.arr [ev1, ev2]) = _ := fun F =>
        collect_arr (c2 := c2) (rs := [.atom (.str name), .atom (.str x)]) (by simp only [collectAll, hc1 F, hc2 F])
      have hst := hst12.wrap h1 h2 rfl
      refine tagged_sim (F0 := 0) (x := .typ x) hdd rfl (fun F _ => hca F) hst (tv := .arr [.str name, .str x]) ?_ ?_ ?_ ?_
      · exact Is.arr h3 (.cons (Is.atom _ (.str name)) (.cons (Is.atom _ (.str x)) (.nil _)))
      · intro e; subst e; simp [view, enc, hn, hx]
      · intro d e
        have hdl := hdd d e
        have htt := ht d e
        subst e
        generalize c2.fill (c.tag o.dialect o.dialect.alias).cells.length (.arr [.atom (.str name), .atom (.str x)]) = c3 at *
        generalize hq : (c.tag o.dialect o.dialect.alias).cells.length = q at *
        obtain ⟨g1, g2, g3⟩ := fill_le (.map (tagEntries o.dialect o.dialect.alias (.obj q))) ((tag_le c o.dialect o.dialect.alias).trans h1)
        refine ⟨_, .obj (c3.fill c.cells.length (.map (tagEntries o.dialect o.dialect.alias (.obj q)))).cells.length, 0, fun F _ => ?_,
          Le.new _ (some (.typ x)), rfl, ?_⟩
        · have h0 : ¬((tagEntries o.dialect o.dialect.alias (.obj q)).length = 1) := by simp [tagEntries]
          simp only [decode, if_neg h0, hdl, tag_value hsd, if_neg hsd.alias.1, if_neg hsd.alias.2.1, if_neg hsd.alias.2.2.1,
            if_neg hsd.alias.2.2.2, if_true, Coll.result, g2 _ _ h3, htt]
        · refine ⟨1, ?_⟩
          simp [den, new_heap]
      · intro p _ hk; exact .inl (hk1 p (hk2 p hk))

theorem body_tmap {n : Nat} (hP : P o k D h root n) {m : Nat} (hm : n ≤ m) (hsd : o.dialect.Sound) {lvl : Nat}
    {es : List (Ref × Ref)} {t : T} (hd : (denEntries (den h n) es).map T.map = some t) (hpl : plainMap k es = false)
    (hdd : ∀ x, D = some x → x.dialect = o.dialect)
    {s : St} {c : Coll} (hl : Link s c) (hdn : Done o k D h n s c)
    (hR : RSeq k D h root s (es.flatMap fun e => [(0, e.1), (lvl, e.2)])) :
    BodySim o k D h (.map es) lvl s c (body o k h m lvl (.map es) s) t := by
  rw [Option.map_eq_some_iff] at hd
  obtain ⟨ts, hts, rfl⟩ := hd
  have e1 := map_snd_flat 0 lvl es
  have hle := (start_le c).trans (tag_le c o.dialect o.dialect.map)
  obtain ⟨s', evs, c2, rs', F0, he, hc, hst, hh, his, hrp, hv⟩ :=
    arr_sim hP hm (rs := es.flatMap fun e : Ref × Ref => [(0, e.1), (lvl, e.2)]) (ts := flatten ts)
      (by rw [e1]; exact denAll_entries.mp hts)
      (fun e x hx => by
        obtain ⟨y, _, hy⟩ := List.mem_flatMap.mp hx
        rcases List.mem_cons.mp hy with rfl | hy
        · rfl
        · simp only [List.mem_singleton] at hy; rw [hy]; exact e)
      (hl.inc hle.values (tag_len c o.dialect o.dialect.map)) (hdn.inc hle) hR
  have hb : body o k h m lvl (.map es) s = .ok (s', tagged o.dialect o.dialect.map (.arr evs)) := by
    have e2 : emitSeq o k h m (s.inc 5) (es.flatMap fun e : Ref × Ref => [(0, e.1), (lvl, e.2)]) = .ok (s', evs) := he
    simp only [body, hpl, Bool.false_eq_true, if_false, emitEntries_seq, e2]; rfl
  rw [hb]
  rw [e1] at hrp
  refine tagged_sim (x := .map es) hdd (by simp [isRich, hpl]) hc hst (tv := .arr ((flatten ts).map (view D o k))) (Is.arr hh his) ?_ ?_ hrp
  · intro e
    subst e
    have hk : (k.complexKeys || ts.all (·.1.isStr)) = false := by rw [stringKeys_den hts]; exact hpl
    have hv2 : view none o k = enc o k := by funext t; simp [view]
    rw [hv2]
    simp only [enc, hk, Bool.false_eq_true, if_false, encFlat_eq]
  · intro d e
    have hdl := hdd d e
    subst e
    have hvid : view (some d) o k = id := by funext t; simp [view]
    rw [hvid, List.map_id] at his
    have hlq : Le c.start c2 := (tag_le c o.dialect o.dialect.map).trans hst.le
    have hpend := start_pending hlq
    generalize hq : (c.tag o.dialect o.dialect.map).cells.length = q at *
    obtain ⟨g1, g2, g3⟩ := fill_le (.map (tagEntries o.dialect o.dialect.map (.obj q))) hlq
    generalize hc3 : c2.fill c.cells.length (.map (tagEntries o.dialect o.dialect.map (.obj q))) = c3 at *
    have hval : c3.values = c2.values := by rw [← hc3]; rfl
    have hsub : Sub c2.heap (c3.new (some (.map (toPairs rs')))).heap := fun p y hy => (Le.new c3 _).heap p y (g2 p y hy)
    have hflat := flatten_toPairs his
    obtain ⟨N, hN⟩ := his
    have hlt : c.cells.length < c3.cells.length := by
      have : c3.cells[c.cells.length]? ≠ none := by
        intro e; unfold Coll.heap at g3; rw [e] at g3; cases g3
      exact (List.getElem?_eq_some_iff.mp (Option.ne_none_iff_exists'.mp this).choose_spec).1
    refine ⟨c3.new (some (.map (toPairs rs'))), .obj c3.cells.length, N + 1, fun F hF => ?_, Le.new _ _, hval, ?_⟩
    · have h0 : ¬((tagEntries o.dialect o.dialect.map (.obj q)).length = 1) := by simp [tagEntries]
      have hrep : replace c.cells.length c3.cells.length F (c3.new (some (.map (toPairs rs')))).cells (.obj c3.cells.length)
          = .ok ((c3.new (some (.map (toPairs rs')))).cells, .obj c3.cells.length, false) := by
        cases F with
        | zero => omega
        | succ F =>
          have hne : ¬(c3.cells.length = c.cells.length) := by omega
          have hnh : ((c3.new (some (.map (toPairs rs')))).cells[c3.cells.length]?).join = some (.map (toPairs rs')) := new_heap c3 _
          simp only [replace, if_neg hne, hnh]
          have : replaceAll (replace c.cells.length c3.cells.length F) (c3.new (some (.map (toPairs rs')))).cells ((toPairs rs').map (·.2))
              = .ok ((c3.new (some (.map (toPairs rs')))).cells, (toPairs rs').map (·.2), false) := by
            refine replaceAll_none fun r hr => ?_
            obtain ⟨e, he, rfl⟩ := List.mem_map.mp hr
            have hmem : e.2 ∈ rs' := by
              rw [← hflat]; unfold flatten; exact List.mem_flatMap.mpr ⟨e, he, by simp⟩
            obtain ⟨t, ht⟩ := denAll_mem hN _ hmem
            exact replace_none (h0 := c2.heap) hsub hpend N F (by omega) _ t ht
          simp only [this]
          rfl
      have hmapk : c3.heap q = some (.arr rs') := g2 _ _ hh
      simp only [decode, if_neg h0, hdl, tag_value hsd, if_true, hmapk, hrep]
    · refine Is.map (new_heap c3 _) ?_
      exact ⟨N, denAll_mono (fun r t => den_mono_both hsub N N (Nat.le_refl N) r t) hN⟩

/-! ## All values -/

theorem body_sim {n : Nat} (hP : P o k D h root n) {m : Nat} (hm : n ≤ m) (hs : Streamable o k h) (hsd : o.dialect.Sound)
    (hdec : ∀ d, D = some d → Decodable o k d h) {lvl w : Nat} {x : Obj} {t : T}
    (hw : h w = some x) (hd : den h (n + 1) (.obj w) = some t) {s : St} {c : Coll} (hl : Link s c) (hdn : Done o k D h n s c)
    (hR : lvl = 0 ∨ (RInv k D h root s ∧ (∀ p, Rich D k h p → Ref.obj p ∈ slots x → ¬Kd s p) ∧ Kd s w)) :
    BodySim o k D h x lvl s c (body o k h m lvl x s) t := by
  have hdd : ∀ x, D = some x → x.dialect = o.dialect := fun d e => (hdec d e).dialect
  have hrich : isRich k x = true → (∀ text, x ≠ .typ text) → o.rich = true := by
    intro h1 h2
    rcases hs.rich with h3 | h3
    · exact h3
    · obtain ⟨text, e⟩ := h3 w x hw h1; exact absurd e (h2 text)
  simp only [den, hw] at hd
  cases x with
  | arr es =>
    refine body_arr hP hm hd hl hdn ?_
    rcases hR with h1 | ⟨h1, h2, h3⟩
    · exact .inl fun e he => by obtain ⟨y, _, rfl⟩ := List.mem_map.mp he; exact h1
    · have e1 : (es.map fun r => (lvl, r)).map (fun e : Nat × Ref => e.2) = es := by
        rw [List.map_map]; exact List.map_id es
      refine .inr ⟨h1, ?_, w, _, h3, hw, ?_⟩
      · rw [e1]; exact h2
      · rw [e1]; exact List.suffix_rfl
  | map es =>
    cases hpl : plainMap k es with
    | true =>
      refine body_plain hP hm hw hd hpl hdec hl hdn ?_
      rcases hR with h1 | ⟨h1, h2, h3⟩
      · refine .inl fun e he => ?_
        obtain ⟨y, _, hy⟩ := List.mem_flatMap.mp he
        rcases List.mem_cons.mp hy with rfl | hy
        · simp [h1]
        · simp only [List.mem_singleton] at hy; rw [hy]; exact h1
      · refine .inr ⟨h1, ?_, w, _, h3, hw, ?_⟩
        · rw [map_snd_flat]; exact h2
        · rw [map_snd_flat]; exact List.suffix_rfl
    | false =>
      refine body_tmap hP hm hsd hd hpl hdd hl hdn ?_
      rcases hR with h1 | ⟨h1, h2, h3⟩
      · refine .inl fun e he => ?_
        obtain ⟨y, _, hy⟩ := List.mem_flatMap.mp he
        rcases List.mem_cons.mp hy with rfl | hy
        · rfl
        · simp only [List.mem_singleton] at hy; rw [hy]; exact h1
      · refine .inr ⟨h1, ?_, w, _, h3, hw, ?_⟩
        · rw [map_snd_flat]; exact h2
        · rw [map_snd_flat]; exact List.suffix_rfl
  | sens v =>
    refine body_sens hP hm hsd hd (hrich rfl (by intro _ e; cases e)) hdd hl hdn ?_
    rcases hR with h1 | ⟨h1, h2, h3⟩
    · exact .inl h1
    · exact .inr ⟨h1, .inr ⟨w, _, h3, hw, by simp [slots]⟩, fun p hp e => h2 p hp (by simp [slots, e])⟩
  | bin bs =>
    simp only [Option.some.injEq] at hd
    subst hd
    refine body_bin hsd ?_ hdd hl
    cases hb : k.binary with
    | true => exact .inl rfl
    | false => exact .inr (hrich (by simp [isRich, hb]) (by intro _ e; cases e))
  | time x =>
    simp only [Option.some.injEq] at hd
    subst hd
    refine body_time hsd ?_ hdd (fun d e => (hdec d e).time w x hw) hl
    cases hb : k.time with
    | true => exact .inl rfl
    | false => exact .inr (hrich (by simp [isRich, hb]) (by intro _ e; cases e))
  | typ x =>
    simp only [Option.some.injEq] at hd
    subst hd
    exact body_typ hsd (fun names hn => hs.named w x names hw hn) hdd (fun d e => (hdec d e).typ w x hw) hl

theorem atom_sim {m lvl : Nat} {s : St} {c : Coll} (hl : Link s c) (a : Atom) :
    Sim o k D h lvl s c (emit o k h m lvl s (.atom a)) (.atom a) (.ofAtom a) := by
  have hview : view D o k (.ofAtom a) = .ofAtom a := view_atom D o k a
  have hadd : Sim o k D h lvl s c (.ok (s.inc 1, .add a)) (.atom a) (.ofAtom a) :=
    ⟨_, _, _, _, 0, rfl, fun F _ => collect_add F c a, add_step hl a, by rw [hview]; exact Is.atom _ a, fun p _ hk => .inl hk⟩
  cases a with
  | str x =>
    obtain ⟨s', ev, c', he, hc, hst, hk⟩ := string_sim (o := o) (k := k) (D := D) (h := h) (lvl := lvl) hl x
    have : emit o k h m lvl s (.atom (.str x)) = emitString k lvl s x := by cases m <;> rfl
    rw [this]
    exact ⟨s', ev, c', _, 0, he, fun F _ => hc F, hst, by rw [hview]; exact Is.atom _ _, fun p _ hp => .inl (hk p hp)⟩
  | _ => cases m <;> exact hadd

theorem P_all (hs : Streamable o k h) (hsd : o.dialect.Sound) (hdec : ∀ d, D = some d → Decodable o k d h)
    : ∀ n, P o k D h root n
  | 0 => by
    intro m hm r t hd lvl s c hl hdn hR
    cases r with
    | atom a =>
      simp only [den, Option.some.injEq] at hd
      subst hd
      exact atom_sim hl a
    | obj p => simp [den] at hd
  | n + 1 => by
    have ih := P_all hs hsd hdec n
    intro m hm r t hd lvl s c hl hdn hR
    cases r with
    | atom a =>
      simp only [den, Option.some.injEq] at hd
      subst hd
      exact atom_sim hl a
    | obj w =>
      cases m with
      | zero => omega
      | succ m =>
        cases hdw : den h n (.obj w) with
        | some t' =>
          have e := den_det hd hdw
          subst e
          refine ih (m + 1) (by omega) _ _ hdw lvl s c hl ?_ hR
          intro p i hm hr hi
          refine hdn p i hm hr ?_
          obtain ⟨t2, ht2⟩ := Option.isSome_iff_exists.mp hi
          rw [den_mono (Nat.le_succ n) ht2]; rfl
        | none =>
          have hx : ∃ x, h w = some x := by
            cases hw : h w with
            | none => simp [den, hw] at hd
            | some x => exact ⟨x, rfl⟩
          obtain ⟨x, hw⟩ := hx
          have hdn0 : Done o k D h n s c := by
            intro p i hm hr hi
            refine hdn p i hm hr ?_
            obtain ⟨t2, ht2⟩ := Option.isSome_iff_exists.mp hi
            rw [den_mono (Nat.le_succ n) ht2]; rfl
          rw [emit_obj hs m lvl s w hw]
          unfold process
          by_cases hl0 : lvl = 0
          · rw [if_pos hl0]
            obtain ⟨s', ev, c', r', F0, he, hc, hst, his, hv, hrp⟩ := body_sim ih (by omega) hs hsd hdec hw hd hl hdn0 (.inl hl0) (m := m)
            refine ⟨s', ev, c', r', F0, he, hc, hst, his, ?_⟩
            intro p hp hk
            exact .inl ((hst.kdZero hl0).mp hk)
          · rw [if_neg hl0]
            rcases hR with h1 | ⟨hinv, hsrc, hfresh⟩
            · exact absurd h1 hl0
            cases hlk : lookup (.obj w) s.values with
            | some i =>
              have hmem := lookup_mem hlk
              have hnr : ¬Rich D k h w := fun hr => hfresh w hr rfl ⟨i, hmem⟩
              obtain ⟨t', m', r', hd', hv', his'⟩ := hdn w i hmem hnr (by rw [hd]; rfl)
              have e := den_det hd hd'
              subst e
              exact ⟨s, .ref i, c, r', 0, rfl, fun F _ => collect_ref F c hv', Step.refl hl, his', fun p _ hk => .inl hk⟩
            | none =>
              have hnk : ¬Kd s w := fun ⟨i, hi⟩ => lookup_none hlk i hi
              have hkd : ∀ p, Kd { s with values := (.obj w, s.refIndex) :: s.values } p ↔ p = w ∨ Kd s p := by
                intro p
                constructor
                · rintro ⟨i, hi⟩
                  rcases List.mem_cons.mp hi with h1 | h1
                  · cases h1; exact .inl rfl
                  · exact .inr ⟨i, h1⟩
                · rintro (rfl | ⟨i, hi⟩)
                  · exact ⟨_, List.mem_cons_self⟩
                  · exact ⟨i, List.mem_cons_of_mem _ hi⟩
              generalize hs1 : ({ s with values := (Key.obj w, s.refIndex) :: s.values } : St) = s1 at hkd
              have hv1 : s1.values = (Key.obj w, s.refIndex) :: s.values := by rw [← hs1]
              have hl1 : Link s1 c := by
                refine ⟨by rw [← hs1]; exact hl.idx, ?_⟩
                intro y i hm
                rw [hv1] at hm
                rcases List.mem_cons.mp hm with h1 | h1
                · cases h1
                · exact hl.strs y i h1
              have hdn1 : Done o k D h n s1 c := by
                intro p i hm hr hi
                rw [hv1] at hm
                rcases List.mem_cons.mp hm with h1 | h1
                · cases h1; rw [hdw] at hi; cases hi
                · exact hdn0 p i h1 hr hi
              have hR1 : lvl = 0 ∨ (RInv k D h root s1 ∧ (∀ p, Rich D k h p → Ref.obj p ∈ slots x → ¬Kd s1 p) ∧ Kd s1 w) := by
                refine .inr ⟨?_, ?_, (hkd w).mpr (.inl rfl)⟩
                · refine ⟨hinv.1, ?_⟩
                  intro p hp hk
                  rcases (hkd p).mp hk with rfl | hk
                  · rcases hsrc with h1 | ⟨w', x', h1, h2, h3⟩
                    · exact .inl h1.symm
                    · exact .inr ⟨w', x', (hkd w').mpr (.inr h1), h2, h3⟩
                  · rcases hinv.2 p hp hk with h1 | ⟨w', x', h1, h2, h3⟩
                    · exact .inl h1
                    · exact .inr ⟨w', x', (hkd w').mpr (.inr h1), h2, h3⟩
                · rintro p ⟨y, hy, hsel⟩ hin hk
                  rcases (hkd p).mp hk with rfl | hk
                  · rcases hsrc with h1 | ⟨w', x', h1, h2, h3⟩
                    · exact hinv.1.root p y p x hy hsel hw h1.symm hin
                    · have := hinv.1.same p y w' x' p x hy hsel h2 hw h3 hin
                      subst this
                      exact hnk h1
                  · rcases hinv.2 p ⟨y, hy, hsel⟩ hk with h1 | ⟨w', x', h1, h2, h3⟩
                    · exact hinv.1.root p y w x hy hsel hw h1 hin
                    · have := hinv.1.same p y w' x' w x hy hsel h2 hw h3 hin
                      subst this
                      exact hnk h1
              obtain ⟨s', ev, c', r', F0, he, hc, hst, his, hv, hrp⟩ := body_sim ih (by omega) hs hsd hdec hw hd hl1 hdn1 hR1 (m := m)
              refine ⟨s', ev, c', r', F0, he, hc, ⟨hst.link, hst.le, ?_, ?_, fun e => absurd e hl0⟩, his, ?_⟩
              · intro p i hm
                rcases hst.fin p i hm with h1 | h1
                · rw [hv1] at h1
                  rcases List.mem_cons.mp h1 with h2 | h2
                  · cases h2
                    refine .inr fun hr => ⟨t, n + 1, r', hd, ?_, his⟩
                    rw [hl.idx]
                    refine hv ?_
                    cases hse : sel D k x with
                    | false => rfl
                    | true => exact absurd ⟨x, hw, hse⟩ hr
                  · exact .inl h2
                · exact .inr h1
              · intro e he; exact hst.keep e (by rw [hv1]; exact List.mem_cons_of_mem _ he)
              · intro p hp hk
                have hkw : Kd s' w := Kd.keep hst ((hkd w).mpr (.inl rfl))
                rcases hrp p hp hk with h1 | h1 | ⟨w', x', h1, h2, h3, h4⟩
                · rcases (hkd p).mp h1 with rfl | h1
                  · exact .inr (.inl (by simp))
                  · exact .inl h1
                · exact .inr (.inr ⟨w, x, hkw, hnk, hw, h1⟩)
                · exact .inr (.inr ⟨w', x', h1, fun hk => h2 ((hkd w').mpr (.inr hk)), h3, h4⟩)

end
end Verif.Stream
