import Verif.Stream.NamedSpec
/-!
# C80: values of named types are streamed and decoded
-/
set_option autoImplicit false
set_option linter.unusedVariables false
set_option linter.unusedSimpArgs false
namespace Verif.Stream.Named
open Verif.Value (Str)

/-! ## Maps -/

def flat : List (Data × Data) → List Data
  | [] => []
  | (k, v) :: r => k :: v :: flat r

theorem toPairs_flat : ∀ es : List (Data × Data), toPairs (flat es) = es
  | [] => rfl
  | (k, v) :: r => by rw [flat, toPairs, toPairs_flat r]

theorem put_new {k v : Data} : ∀ {es : List (Data × Data)}, (∀ e ∈ es, sameKey e.1 k = false) → put k v es = es ++ [(k, v)]
  | [], _ => rfl
  | (k', v') :: r, h => by
    have h1 := h (k', v') List.mem_cons_self
    dsimp only at h1
    rw [put, h1, if_neg (by simp), put_new fun e he => h e (List.mem_cons_of_mem _ he)]
    rfl

theorem putAll_distinct {es : List (Data × Data)} (h : Distinct es) : putAll es = es := by
  have key : ∀ (es acc : List (Data × Data)), Distinct (acc ++ es) → es.foldl (fun m e => put e.1 e.2 m) acc = acc ++ es := by
    intro es
    induction es with
    | nil => intro acc _; simp
    | cons e r ih =>
      intro acc h
      have h2 := List.pairwise_append.1 h
      rw [List.foldl_cons, put_new fun x hx => h2.2.2 x hx e List.mem_cons_self, ih _ (by simpa using h)]
      simp
  have := key es [] (by simpa using h)
  rwa [List.nil_append] at this

theorem sameKey_str {d : Data} {k : Str} : sameKey d (.atom (.str k)) = true ↔ d = .atom (.str k) := by
  cases d <;> simp [sameKey]

theorem sameKey_str' {d : Data} {k : Str} (h : d ≠ .atom (.str k)) : sameKey d (.atom (.str k)) = false := by
  cases hs : sameKey d (.atom (.str k)) with
  | false => rfl
  | true => exact absurd (sameKey_str.1 hs) h

theorem sameKey_str'' {d : Data} {k : Str} (h : d ≠ .atom (.str k)) : sameKey (.atom (.str k)) d = false := by
  cases d <;> simp [sameKey]
  rename_i a
  intro e; subst e; exact h rfl

theorem getStr_none {k : Str} : ∀ {es : List (Data × Data)}, NoKey k es → getStr k es = none
  | [], _ => rfl
  | (k', v) :: r, h => by
    rw [getStr, sameKey_str' (h (k', v) List.mem_cons_self), if_neg (by simp), getStr_none fun e he => h e (List.mem_cons_of_mem _ he)]

theorem without_none {k : Str} {es : List (Data × Data)} (h : NoKey k es) : without k es = es := by
  unfold without
  rw [List.filter_eq_self]
  intro e he
  rw [sameKey_str' (h e he)]; rfl

theorem verbatim_none {d : Dialect} {es : List (Data × Data)} (h : NoKey d.refKey es) : verbatim d es = none := by
  unfold verbatim
  split
  · rename_i k i
    rw [if_neg]
    rintro rfl
    exact h _ List.mem_cons_self rfl
  · rfl

theorem collect_tagged {W : World} (hd : Proper W.dialect) {name : Str} {v : Ev} {x : Data} (h : collect W v = some x) :
    collect W (tagged W.dialect name v) = decode W name [(.atom (.str W.dialect.typeKey), .atom (.str name)), (.atom (.str W.dialect.valueKey), x)] := by
  have h1 : sameKey (.atom (.str W.dialect.typeKey)) (.atom (.str W.dialect.valueKey)) = false :=
    sameKey_str' fun e => hd.keys (by simpa using e)
  have h2 : sameKey (.atom (.str W.dialect.typeKey)) (.atom (.str W.dialect.typeKey)) = true := sameKey_str.2 rfl
  simp [tagged, str, collect, collectAll, h, toPairs, putAll, put, h1, getStr, h2]

theorem decode_map {W : World} (hd : Proper W.dialect) {ds : List Data} :
    decode W W.dialect.map [(.atom (.str W.dialect.typeKey), .atom (.str W.dialect.map)), (.atom (.str W.dialect.valueKey), .arr ds)] =
      some (.map (toPairs ds)) := by
  have h1 : sameKey (.atom (.str W.dialect.typeKey)) (.atom (.str W.dialect.valueKey)) = false :=
    sameKey_str' fun e => hd.keys (by simpa using e)
  have h2 : sameKey (.atom (.str W.dialect.valueKey)) (.atom (.str W.dialect.valueKey)) = true := sameKey_str.2 rfl
  unfold decode
  simp [getStr, h1, h2]

theorem decode_sens {W : World} (hd : Proper W.dialect) {x : Data} :
    decode W W.dialect.sensitive [(.atom (.str W.dialect.typeKey), .atom (.str W.dialect.sensitive)), (.atom (.str W.dialect.valueKey), x)] =
      some (.sens x) := by
  have h1 : sameKey (.atom (.str W.dialect.typeKey)) (.atom (.str W.dialect.valueKey)) = false :=
    sameKey_str' fun e => hd.keys (by simpa using e)
  have h2 : sameKey (.atom (.str W.dialect.valueKey)) (.atom (.str W.dialect.valueKey)) = true := sameKey_str.2 rfl
  unfold decode
  simp [getStr, h1, h2, hd.sens]

theorem decode_named {W : World} {p : Nat} {x : Data} (h : Registered W p x) (m : List (Data × Data)) (hl : m.length ≠ 1)
    (hx : (getStr W.dialect.valueKey m).getD (.map (without W.dialect.typeKey m)) = x) : decode W (W.name p) m = some (.host p x) := by
  have hn := h.name
  simp only [List.mem_cons, List.not_mem_nil, or_false, not_or] at hn
  unfold decode
  simp only [hx]
  rw [if_neg hl, if_neg hn.1, if_neg hn.2.1, if_neg (by simp [hn]), h.named]
  exact h.make

theorem rt_host {W : World} (hd : Proper W.dialect) (complex : Bool) (p : Nat) (v : Data) (h : Good W (.host p v)) (hv : ∀ es, v ≠ .map es)
    (ih : Good W v → ∃ e, emit W complex true v = some e ∧ collect W e = some v) :
    ∃ e, emit W complex true (.host p v) = some e ∧ collect W e = some (.host p v) := by
  have hg : Registered W p v ∧ Good W v := by
    cases v <;> first | exact absurd rfl (hv _) | (rw [Good] at h; exact h; simp)
  obtain ⟨e, h1, h2⟩ := ih hg.2
  refine ⟨tagged W.dialect (W.name p) e, ?_, ?_⟩
  · cases v <;> first | exact absurd rfl (hv _) | (rw [emit, if_pos rfl, h1]; rfl; simp)
  · have h2' : sameKey (.atom (.str W.dialect.valueKey)) (.atom (.str W.dialect.valueKey)) = true := sameKey_str.2 rfl
    have hk2 : sameKey (.atom (.str W.dialect.typeKey)) (.atom (.str W.dialect.valueKey)) = false := sameKey_str' fun e => hd.keys (by simpa using e)
    rw [collect_tagged hd h2]
    exact decode_named hg.1 _ (by simp) (by simp [getStr, hk2, h2'])

mutual
theorem rt {W : World} (hd : Proper W.dialect) (complex : Bool) : (d : Data) → Good W d → ∃ e, emit W complex true d = some e ∧ collect W e = some d
  | .atom a, _ => ⟨_, rfl, rfl⟩
  | .arr es, h => by
    rw [Good] at h
    obtain ⟨x, h1, h2⟩ := rt_all hd complex es h
    exact ⟨.arr x, by rw [emit, h1]; rfl, by rw [collect, h2]; rfl⟩
  | .map es, h => by
    rw [Good] at h
    obtain ⟨hg, hdis, hty, href⟩ := h
    obtain ⟨x, h1, h2⟩ := rt_entries hd complex es hg
    rw [emit]
    split
    · refine ⟨.map x, by rw [verbatim_none href, h1]; rfl, ?_⟩
      rw [collect, h2]
      dsimp only
      rw [toPairs_flat, putAll_distinct hdis, getStr_none hty]
    · refine ⟨_, by rw [if_pos rfl, h1]; rfl, ?_⟩
      rw [collect_tagged hd (x := .arr (flat es)) (by rw [collect, h2]; rfl), decode_map hd, toPairs_flat]
  | .sens v, h => by
    rw [Good] at h
    obtain ⟨e, h1, h2⟩ := rt hd complex v h
    refine ⟨_, by rw [emit, if_pos rfl, h1]; rfl, ?_⟩
    rw [collect_tagged hd h2, decode_sens hd]
  | .typ text, h => by
    rw [Good] at h
    refine ⟨_, by rw [emit], ?_⟩
    simp [str, collect, collectAll, toPairs, putAll, put, getStr, sameKey, decode, h]
  | .host p (.map es), h => by
    rw [Good] at h
    obtain ⟨hr, hg, hdis, hne, hty, hval⟩ := h
    obtain ⟨x, h1, h2⟩ := rt_raw hd complex es hg
    refine ⟨_, by rw [emit, if_pos rfl, h1]; rfl, ?_⟩
    have hk : sameKey (.atom (.str W.dialect.typeKey)) (.atom (.str W.dialect.typeKey)) = true := sameKey_str.2 rfl
    have hk2 : sameKey (.atom (.str W.dialect.typeKey)) (.atom (.str W.dialect.valueKey)) = false := sameKey_str' fun e => hd.keys (by simpa using e)
    have hp : putAll ((.atom (.str W.dialect.typeKey), .atom (.str (W.name p))) :: es) = (.atom (.str W.dialect.typeKey), .atom (.str (W.name p))) :: es := by
      refine putAll_distinct (List.pairwise_cons.2 ⟨fun e he => sameKey_str'' (hty e he), hdis⟩)
    rw [collect]
    simp only [collectAll, str, collect, h2, toPairs, toPairs_flat, hp, getStr, hk, if_true]
    refine decode_named hr _ (by simpa using hne) ?_
    simp only [getStr, hk2, Bool.false_eq_true, if_false, getStr_none hval, Option.getD]
    congr 1
    have := without_none hty
    unfold without at this ⊢
    rw [List.filter_cons, hk, this]
    rfl
  | .host p (.atom a), h => rt_host hd complex p _ h (by intro es e; cases e) (fun h => rt hd complex _ h)
  | .host p (.arr a), h => rt_host hd complex p _ h (by intro es e; cases e) (fun h => rt hd complex _ h)
  | .host p (.sens a), h => rt_host hd complex p _ h (by intro es e; cases e) (fun h => rt hd complex _ h)
  | .host p (.typ a), h => rt_host hd complex p _ h (by intro es e; cases e) (fun h => rt hd complex _ h)
  | .host p (.host q a), h => rt_host hd complex p _ h (by intro es e; cases e) (fun h => rt hd complex _ h)

theorem rt_all {W : World} (hd : Proper W.dialect) (complex : Bool) : (ds : List Data) → GoodAll W ds →
    ∃ es, emitAll W complex true ds = some es ∧ collectAll W es = some ds
  | [], _ => ⟨[], rfl, rfl⟩
  | d :: ds, h => by
    rw [GoodAll] at h
    obtain ⟨e, h1, h2⟩ := rt hd complex d h.1
    obtain ⟨es, h3, h4⟩ := rt_all hd complex ds h.2
    exact ⟨e :: es, by simp [emitAll, h1, h3], by simp [collectAll, h2, h4]⟩

theorem rt_entries {W : World} (hd : Proper W.dialect) (complex : Bool) : (ds : List (Data × Data)) → GoodEntries W ds →
    ∃ es, emitEntries W complex true ds = some es ∧ collectAll W es = some (flat ds)
  | [], _ => ⟨[], rfl, rfl⟩
  | (k, v) :: ds, h => by
    rw [GoodEntries] at h
    obtain ⟨e, h1, h2⟩ := rt hd complex k h.1
    obtain ⟨e', h1', h2'⟩ := rt hd complex v h.2.1
    obtain ⟨es, h3, h4⟩ := rt_entries hd complex ds h.2.2
    exact ⟨e :: e' :: es, by simp [emitEntries, h1, h1', h3], by simp [collectAll, h2, h2', h4, flat]⟩

theorem rt_raw {W : World} (hd : Proper W.dialect) (complex : Bool) : (ds : List (Data × Data)) → GoodValues W ds →
    ∃ es, emitRaw W complex true ds = some es ∧ collectAll W es = some (flat ds)
  | [], _ => ⟨[], rfl, rfl⟩
  | (k, v) :: ds, h => by
    rw [GoodValues] at h
    obtain ⟨e', h1', h2'⟩ := rt hd complex v h.1
    obtain ⟨es, h3, h4⟩ := rt_raw hd complex ds h.2
    exact ⟨.add k :: e' :: es, by simp [emitRaw, h1', h3], by simp [collectAll, collect, h2', h4, flat]⟩
end

/-! ## C80 -/

/-- **C80** (partial) A value with values of named types in it that is streamed to a decoder, without de-duplication, is decoded as it was,
whether the consumer can do complex keys or not.  Partial: `Good` excludes maps that look like a representation (as for C46), arguments that
are empty maps and argument maps with a key of the dialect, see `C80_violated`. -/
theorem C80_partial {W : World} (hd : Proper W.dialect) (complex : Bool) (d : Data) (h : Good W d) :
    ∃ e, emit W complex true d = some e ∧ collect W e = some d :=
  rt hd complex d h

/-- Two named types in the dialect of dgo; the second is the first with parameters, of the same name. -/
def Ex.W : World where
  dialect := dgoDialect
  name := fun _ => txt "point"
  named := fun s => if s = txt "point" then some 0 else none
  make := fun p d => some (.host p d)
  parseType := fun s => some (.typ s)

theorem Ex.proper : Proper Ex.W.dialect := ⟨by decide, by decide⟩
theorem Ex.proper_pcore : Proper pcoreDialect := ⟨by decide, by decide⟩

def Ex.s (s : String) : Data := .atom (.str (txt s))
def Ex.i (n : Nat) : Data := .atom (.int (BitVec.ofNat 64 n))

/-- A point in a point, in an array -/
def Ex.d : Data := .arr [.host 0 (.map [(Ex.s "x", Ex.i 1), (Ex.s "y", .host 0 (Ex.i 2))])]

theorem Ex.good : Good Ex.W Ex.d := by
  have r : ∀ v, Registered Ex.W 0 v := fun v => ⟨by decide, rfl, by decide⟩
  simp only [Ex.d, Ex.s, Ex.i, Good, GoodAll, GoodValues, and_true, true_and]
  refine ⟨r _, r _, ?_, by simp, ?_, ?_⟩
  · unfold Distinct
    rw [List.pairwise_pair]
    decide
  · intro e he
    simp only [List.mem_cons, List.not_mem_nil, or_false] at he
    rcases he with rfl | rfl <;> simp <;> decide
  · intro e he
    simp only [List.mem_cons, List.not_mem_nil, or_false] at he
    rcases he with rfl | rfl <;> simp <;> decide

example : ∃ e, emit Ex.W false true Ex.d = some e ∧ collect Ex.W e = some Ex.d := C80_partial Ex.proper _ _ Ex.good

/-- What is decoded -/
def transfer (W : World) (complex : Bool) (d : Data) : Option Data := (emit W complex true d).bind (collect W)

/-- **C80** does not hold: a value the argument of which is the empty map is decoded as the type; if the argument map has the key of
values then that value alone is the argument; if it has the key of types then its value is taken for the name; and a value of a type with
parameters is decoded as a value of the type without. -/
theorem C80_violated :
    transfer Ex.W true (.host 0 (.map [])) = some (.typ (txt "point")) ∧
    transfer Ex.W true (.host 0 (.map [(Ex.s "x", Ex.i 1), (Ex.s "__value", Ex.i 2)])) = some (.host 0 (Ex.i 2)) ∧
    transfer Ex.W true (.host 0 (.map [(Ex.s "x", Ex.i 1), (Ex.s "__type", Ex.s "y")])) = none ∧
    transfer Ex.W true (.host 1 (Ex.i 1)) = some (.host 0 (Ex.i 1)) := by
  refine ⟨rfl, rfl, rfl, rfl⟩

theorem tagged_keys {d : Dialect} {name : Str} {v : Ev} (h : StringKeyed v) : StringKeyed (tagged d name v) := by
  rw [tagged, StringKeyed, StringKeyedMap, StringKeyedMap, StringKeyedMap]
  exact ⟨⟨_, rfl⟩, by simp [str, StringKeyed], ⟨_, rfl⟩, h, True.intro⟩

theorem host_keys {W : World} {rich : Bool} {p : Nat} {v : Data} (h : StringArgs (.host p v)) (hv : ∀ es, v ≠ .map es)
    (ih : StringArgs v → ∀ e, emit W false rich v = some e → StringKeyed e) : ∀ e, emit W false rich (.host p v) = some e → StringKeyed e := by
  have hs : StringArgs v := by
    cases v <;> first | exact absurd rfl (hv _) | (rw [StringArgs] at h; exact h; simp)
  have he : emit W false rich (.host p v) = if rich then (emit W false rich v).map (tagged W.dialect (W.name p)) else none := by
    cases v <;> first | exact absurd rfl (hv _) | exact emit.eq_7 .. | (conv => lhs; rw [emit]) | (conv => lhs; rw [emit.eq_def])
  intro e h1
  rw [he] at h1
  split at h1
  · obtain ⟨x, hx, rfl⟩ := Option.map_eq_some_iff.1 h1
    exact tagged_keys (ih hs x hx)
  · cases h1

mutual
theorem keys_str {W : World} {rich : Bool} : (d : Data) → StringArgs d → ∀ e, emit W false rich d = some e → StringKeyed e
  | .atom a, _, e, h => by rw [emit] at h; cases h; simp [StringKeyed]
  | .arr es, hs, e, h => by
    rw [StringArgs] at hs
    rw [emit] at h
    obtain ⟨x, hx, rfl⟩ := Option.map_eq_some_iff.1 h
    rw [StringKeyed]; exact keys_all es hs x hx
  | .map es, hs, e, h => by
    rw [StringArgs] at hs
    rw [emit] at h
    split at h
    · rename_i hk
      split at h
      · cases h; simp [StringKeyed]
      · obtain ⟨x, hx, rfl⟩ := Option.map_eq_some_iff.1 h
        rw [StringKeyed]; exact (keys_entries es hs x hx).2 (by simpa using hk)
    · split at h
      · obtain ⟨x, hx, rfl⟩ := Option.map_eq_some_iff.1 h
        refine tagged_keys ?_
        rw [StringKeyed]; exact (keys_entries es hs x hx).1
      · cases h
  | .sens v, hs, e, h => by
    rw [StringArgs] at hs
    rw [emit] at h
    split at h
    · obtain ⟨x, hx, rfl⟩ := Option.map_eq_some_iff.1 h
      exact tagged_keys (keys_str v hs x hx)
    · cases h
  | .typ text, hs, e, h => by
    rw [emit] at h
    cases h
    rw [StringKeyed, StringKeyedMap, StringKeyedMap]
    exact ⟨⟨_, rfl⟩, by simp [str, StringKeyed], True.intro⟩
  | .host p (.map es), hs, e, h => by
    rw [StringArgs] at hs
    rw [emit] at h
    split at h
    · obtain ⟨x, hx, rfl⟩ := Option.map_eq_some_iff.1 h
      rw [StringKeyed, StringKeyedMap]
      exact ⟨⟨_, rfl⟩, by simp [str, StringKeyed], keys_raw es hs.1 hs.2 x hx⟩
    · cases h
  | .host p (.atom a), h, e, h1 => host_keys h (by intro es e; cases e) (fun h => keys_str _ h) e h1
  | .host p (.arr a), h, e, h1 => host_keys h (by intro es e; cases e) (fun h => keys_str _ h) e h1
  | .host p (.sens a), h, e, h1 => host_keys h (by intro es e; cases e) (fun h => keys_str _ h) e h1
  | .host p (.typ a), h, e, h1 => host_keys h (by intro es e; cases e) (fun h => keys_str _ h) e h1
  | .host p (.host q a), h, e, h1 => host_keys h (by intro es e; cases e) (fun h => keys_str _ h) e h1

theorem keys_all {W : World} {rich : Bool} : (ds : List Data) → StringArgsAll ds → ∀ es, emitAll W false rich ds = some es → StringKeyedAll es
  | [], _, es, h => by rw [emitAll] at h; cases h; simp [StringKeyedAll]
  | d :: ds, hs, es, h => by
    rw [StringArgsAll] at hs
    rw [emitAll] at h
    split at h
    · rename_i e es' h1 h2
      cases h
      rw [StringKeyedAll]; exact ⟨keys_str d hs.1 _ h1, keys_all ds hs.2 _ h2⟩
    · cases h

theorem keys_entries {W : World} {rich : Bool} : (ds : List (Data × Data)) → StringArgsEntries ds → ∀ es, emitEntries W false rich ds = some es →
    StringKeyedAll es ∧ (stringKeys ds = true → StringKeyedMap es)
  | [], _, es, h => by rw [emitEntries] at h; cases h; simp [StringKeyedAll, StringKeyedMap]
  | (k, v) :: ds, hs, es, h => by
    rw [StringArgsEntries] at hs
    rw [emitEntries] at h
    split at h
    · rename_i e e' es' h1 h2 h3
      cases h
      have ih := keys_entries ds hs.2.2 _ h3
      have hv := keys_str v hs.2.1 _ h2
      refine ⟨?_, fun hk => ?_⟩
      · rw [StringKeyedAll, StringKeyedAll]; exact ⟨keys_str k hs.1 _ h1, hv, ih.1⟩
      · simp only [stringKeys, List.all_cons, Bool.and_eq_true] at hk
        rw [StringKeyedMap]
        refine ⟨?_, hv, ih.2 hk.2⟩
        have := hk.1
        split at this
        · rename_i s
          rw [emit] at h1; cases h1; exact ⟨s, rfl⟩
        · cases this
    · cases h

theorem keys_raw {W : World} {rich : Bool} : (ds : List (Data × Data)) → stringKeys ds = true → StringArgsEntries ds → ∀ es,
    emitRaw W false rich ds = some es → StringKeyedMap es
  | [], _, _, es, h => by rw [emitRaw] at h; cases h; simp [StringKeyedMap]
  | (k, v) :: ds, hk, hs, es, h => by
    rw [StringArgsEntries] at hs
    rw [emitRaw] at h
    split at h
    · rename_i e es' h1 h2
      cases h
      simp only [stringKeys, List.all_cons, Bool.and_eq_true] at hk
      rw [StringKeyedMap]
      refine ⟨?_, keys_str v hs.2.1 _ h1, keys_raw ds hk.2 hs.2.2 _ h2⟩
      have := hk.1
      split at this
      · rename_i s
        exact ⟨s, rfl⟩
      · cases this
    · cases h
end

/-- **C80** (partial) A consumer that cannot do complex keys is told maps with strings as keys only.  Partial: the maps that are arguments of
named types must have strings as keys, see `C80_keys_violated`. -/
theorem C80_keys_partial (W : World) (rich : Bool) (d : Data) (h : StringArgs d) (e : Ev) (he : emit W false rich d = some e) : StringKeyed e :=
  keys_str d h e he

example : ∃ e, emit Ex.W false true Ex.d = some e ∧ StringKeyed e := by
  obtain ⟨e, h, _⟩ := C80_partial Ex.proper false _ Ex.good
  exact ⟨e, h, C80_keys_partial Ex.W true Ex.d (by simp [Ex.d, Ex.s, Ex.i, StringArgs, StringArgsAll, StringArgsEntries, stringKeys]) e h⟩

/-- **C80** does not hold: the keys of an argument map are passed on as they are.  The JSON encoder writes such a key as it writes any
value, which is no JSON. -/
theorem C80_keys_violated : ∃ d e, emit Ex.W false true d = some e ∧ ¬ StringKeyed e := by
  refine ⟨.host 0 (.map [(Ex.i 1, Ex.i 2)]), _, rfl, ?_⟩
  rw [StringKeyed, StringKeyedMap, StringKeyedMap]
  rintro ⟨_, _, ⟨s, h⟩, _⟩
  cases h

/-! ### Data that needs no tags -/

theorem stringKeys_iff {es : List (Data × Data)} : stringKeys es = true ↔ ¬ OddKey es := by
  simp only [stringKeys, List.all_eq_true, OddKey, not_exists, not_and, Classical.not_forall, Classical.not_not]
  refine forall_congr' fun e => forall_congr' fun _ => ?_
  split
  · rename_i s h; rw [h]; simp
  · rename_i h; simpa using h

mutual
theorem direct {W : World} {complex rich : Bool} : (d : Data) → Direct complex W.dialect.refKey d → emit W complex rich d = some (told d)
  | .atom a, _ => by rw [emit, told.eq_def]
  | .arr es, h => by rw [Direct] at h; rw [emit, told, direct_all es h]; rfl
  | .map es, h => by
    rw [Direct] at h
    have hs : (complex || stringKeys es) = true := by
      rw [Bool.or_eq_true, stringKeys_iff]; exact h.1
    rw [emit, if_pos hs, verbatim_none h.2.1, direct_entries es h.2.2, told]
    rfl
  | .sens v, h => by simp [Direct] at h
  | .typ t, h => by simp [Direct] at h
  | .host p v, h => by simp [Direct] at h
theorem direct_all {W : World} {complex rich : Bool} : (ds : List Data) → DirectAll complex W.dialect.refKey ds → emitAll W complex rich ds = some (toldAll ds)
  | [], _ => by rw [emitAll, toldAll]
  | d :: ds, h => by rw [DirectAll] at h; rw [emitAll, toldAll, direct d h.1, direct_all ds h.2]
theorem direct_entries {W : World} {complex rich : Bool} : (ds : List (Data × Data)) → DirectEntries complex W.dialect.refKey ds →
    emitEntries W complex rich ds = some (toldEntries ds)
  | [], _ => by rw [emitEntries, toldEntries]
  | (k, v) :: r, h => by rw [DirectEntries] at h; rw [emitEntries, toldEntries, direct k h.1, direct v h.2.1, direct_entries r h.2.2]
end

/-- **C80** Atoms, arrays and maps are told to the consumer as they are, with and without rich data; a map with keys that aren't strings if the
consumer can do them. -/
theorem C80_direct (W : World) (complex rich : Bool) (d : Data) (h : Direct complex W.dialect.refKey d) : emit W complex rich d = some (told d) :=
  direct d h

example : Direct false Ex.W.dialect.refKey (.map [(Ex.s "a", .arr [Ex.i 1, .map []])]) ∧ Direct true Ex.W.dialect.refKey (.map [(Ex.i 1, Ex.i 2)]) := by
  have h : (txt "a") ≠ Ex.W.dialect.refKey := by decide
  simp [Direct, DirectAll, DirectEntries, Ex.s, Ex.i, NoKey, OddKey]
  exact h

mutual
theorem needs {W : World} {complex : Bool} : (d : Data) → (emit W complex false d = none ↔ NeedsRich complex d)
  | .atom a => by rw [emit, NeedsRich]; simp
  | .typ t => by rw [emit, NeedsRich]; simp
  | .arr es => by rw [emit, NeedsRich, Option.map_eq_none_iff, needs_all es]
  | .map es => by
    rw [emit, NeedsRich]
    by_cases hs : (complex || stringKeys es) = true
    · rw [if_pos hs]
      have h1 : ¬ (complex = false ∧ OddKey es) := by
        rintro ⟨h, h'⟩
        rw [Bool.or_eq_true, stringKeys_iff] at hs
        rcases hs with hs | hs
        · rw [hs] at h; cases h
        · exact hs h'
      rw [or_iff_right h1]
      split
      · rename_i i hv
        simp only [reduceCtorEq, false_iff]
        unfold verbatim at hv
        split at hv
        · simp [NeedsRichEntries, NeedsRich]
        · cases hv
      · rw [Option.map_eq_none_iff, needs_entries es]
    · rw [if_neg hs, if_neg (by simp)]
      rw [Bool.or_eq_true, stringKeys_iff, not_or, Classical.not_not] at hs
      simp [hs]
  | .sens v => by rw [emit, NeedsRich]; simp
  | .host p v => by rw [NeedsRich]; cases v <;> rw [emit] <;> simp
theorem needs_all {W : World} {complex : Bool} : (ds : List Data) → (emitAll W complex false ds = none ↔ NeedsRichAll complex ds)
  | [] => by rw [emitAll, NeedsRichAll]; simp
  | d :: ds => by
    rw [emitAll, NeedsRichAll, ← needs (W := W) d, ← needs_all (W := W) ds]
    cases emit W complex false d <;> cases emitAll W complex false ds <;> simp
theorem needs_entries {W : World} {complex : Bool} : (ds : List (Data × Data)) → (emitEntries W complex false ds = none ↔ NeedsRichEntries complex ds)
  | [] => by rw [emitEntries, NeedsRichEntries]; simp
  | (k, v) :: r => by
    rw [emitEntries, NeedsRichEntries, ← needs (W := W) k, ← needs (W := W) v, ← needs_entries (W := W) r]
    cases emit W complex false k <;> cases emit W complex false v <;> cases emitEntries W complex false r <;> simp
end

/-- **C80** Without rich data it panics exactly if there is something that needs it. -/
theorem C80_panic_iff (W : World) (complex : Bool) (d : Data) : emit W complex false d = none ↔ NeedsRich complex d := needs d

example : NeedsRich false (.arr [.map [(Ex.i 1, Ex.i 2)]]) ∧ ¬ NeedsRich true (.arr [.map [(Ex.i 1, Ex.i 2)]]) := by
  simp [NeedsRich, NeedsRichAll, NeedsRichEntries, OddKey, Ex.i]

end Verif.Stream.Named
