import Verif.Reflect.StructLemmas
import Verif.Reflect.Props
import Verif.Value.Props
/-!
# C71: a Go struct as a map
-/
set_option autoImplicit false
set_option linter.unusedVariables false
set_option linter.unusedSimpArgs false
namespace Verif.Reflect
open Verif.Value Verif.HMap

/-- `struct { A int8; B []string; C interface{} }` -/
def Ex.s1 : SV where
  fields := [([65], .plain (.int .int8 5)), ([66], .plain (.slice .string (some [.string Ex.a]))), ([67], .plain (.iface none))]
  frozen := false
  addressable := true
def Ex.es1 : List (Str × Val) := [([65], .int 5), ([66], .arr [.str Ex.a]), ([67], .nil)]

/-- **C71, view.**  A struct without embedded structs whose fields can be read is a map of the names of its fields to their values, in the
order of declaration. -/
theorem C71_view_partial (E : Env) (s : SV) (hd : (s.fields.map (·.1)).Nodup) (hp : ∀ f ∈ s.fields, ∃ g, f.2 = .plain g ∧ Known g) :
    ∃ es, Shows E s es := by
  obtain ⟨fs, b, c⟩ := s
  simp only at hd hp
  suffices h : ∃ es, Agree E fs es by
    obtain ⟨es, h⟩ := h
    exact ⟨es, h, by rw [← agree_names h]; exact hd⟩
  clear hd
  induction fs with
  | nil => exact ⟨[], .nil⟩
  | cons f fs ih =>
    obtain ⟨g, hg, hk⟩ := hp f List.mem_cons_self
    obtain ⟨v, hv⟩ := reads (E := E) g hk
    obtain ⟨es, h⟩ := ih fun x hx => hp x (List.mem_cons_of_mem _ hx)
    exact ⟨(f.1, v) :: es, .cons ⟨rfl, g, hg, hv⟩ h⟩

example : (Ex.s1.fields.map (·.1)).Nodup ∧ ∀ f ∈ Ex.s1.fields, ∃ g, f.2 = .plain g ∧ Known g := by
  refine ⟨by decide, ?_⟩
  simp [Ex.s1, Known, KnownAll, IK.signed]

theorem Ex.shows1 : Shows Ex.E0 Ex.s1 Ex.es1 := by
  refine ⟨?_, by decide⟩
  refine .cons ⟨rfl, _, rfl, rfl⟩ (.cons ⟨rfl, _, rfl, rfl⟩ (.cons ⟨rfl, _, rfl, rfl⟩ .nil))

/-- **C71, lookup.**  `Len`, `Keys`, `Get` and `ContainsKey` agree with the entries. -/
theorem C71_lookup_partial (E : Env) (s : SV) (es : List (Str × Val)) (h : Shows E s es) :
    s.len = es.length ∧ s.keys = es.map (fun e => .str e.1) ∧ s.entries E = es.map (fun e => (.str e.1, .ok e.2)) ∧
    (∀ n v, (n, v) ∈ es → s.get E (.str n) = some (.ok v)) ∧ (∀ k, (∀ e ∈ es, k ≠ .str e.1) → s.get E k = none) ∧
    ∀ k, s.containsKey k = true ↔ ∃ e ∈ es, k = .str e.1 := by
  have hA := h.fields
  have hnone : ∀ k, (∀ e ∈ es, k ≠ .str e.1) → Rec.value ⟨es, s.frozen⟩ k = none := by
    intro k hk
    cases k <;> try rfl
    rename_i n
    rw [Rec.value]
    cases hl : es.lookup n with
    | none => rfl
    | some v => exact absurd rfl (hk _ (mem_of_lookup hl))
  refine ⟨agree_len hA, ?_, agree_entries hA, ?_, ?_, ?_⟩
  · have := congrArg (List.map Val.str) (agree_names hA)
    rw [List.map_map, List.map_map] at this
    exact this
  · intro n v hv
    rw [get_eq hA, Rec.value]
    simp only [lookup_mem h.distinct hv, Option.map]
  · intro k hk
    rw [get_eq hA, hnone k hk]
    rfl
  · intro k
    rw [containsKey_eq hA]
    constructor
    · intro hk
      apply Classical.byContradiction
      intro hn
      rw [hnone k (fun e he hke => hn ⟨e, he, hke⟩)] at hk
      cases hk
    · rintro ⟨e, he, rfl⟩
      rw [Rec.value]
      simp only [lookup_mem (n := e.1) (x := e.2) h.distinct he]
      rfl

example : ∃ es, Shows Ex.E0 Ex.s1 es ∧ es.length = 3 := ⟨_, Ex.shows1, rfl⟩

/-- **C71, programs.**  For every sequence of calls, a struct gives the answers of a record with the same entries: a map in which values are
replaced but no entries added or removed.  The struct has no embedded structs, it is given by a pointer, and what is put in a field is
something that it can hold. -/
theorem C71_run_partial (E : Env) (s : SV) (es : List (Str × Val)) (h : Shows E s es) (ha : s.addressable = true ∨ s.frozen = true)
    (os : List SOp) (hf : ∀ o ∈ os, Fits E s o) :
    (s.run E os).2 = (Rec.run ⟨es, s.frozen⟩ os).2 ∧ Shows E (s.run E os).1 (Rec.run ⟨es, s.frozen⟩ os).1.es := by
  have := run_sim os (E := E) (s := s) (r := ⟨es, s.frozen⟩) ⟨h, rfl, ha⟩ hf
  exact ⟨this.2, this.1.shows⟩

example : ∀ o ∈ [SOp.put (.str [65]) (.int 7), .get (.str [65]), .put (.str [68]) .nil, .freeze, .putAll [(.str [65], .int 8)]], Fits Ex.E0 Ex.s1 o := by
  have hty : ∀ n t, HasType Ex.s1 n t → n = [65] → t = .int .int8 := by
    rintro n t ⟨g, hg, rfl⟩ rfl
    simp [Ex.s1] at hg
    rw [hg]; rfl
  have hold : ∀ i : BitVec 64, i = 7 ∨ i = 8 → CanHold Ex.E0 (.int .int8) (.int i) := by
    rintro i (rfl | rfl) <;> refine ⟨⟨_, rfl⟩, ?_, by simp [WF]⟩ <;> simp [Survives, IK.min, IK.max, IK.signed, IK.bits]
  simp only [List.mem_cons, List.not_mem_nil, or_false]
  rintro o (rfl | rfl | rfl | rfl | rfl)
  · intro n t hn ht
    cases hn
    rw [hty _ t ht rfl]
    exact hold 7 (.inl rfl)
  · trivial
  · rintro n t hn ⟨g, hg, rfl⟩
    cases hn
    simp [Ex.s1] at hg
  · trivial
  · intro e he n t hn ht
    simp only [List.mem_singleton] at he
    subst he
    cases hn
    rw [hty _ t ht rfl]
    exact hold 8 (.inr rfl)

/-- **C71, put.**  For a struct with or without embedded structs: a put that succeeds returns what the name had, leaves the names and the
values of the other names as they are, and the name then has the value if the field can hold it. -/
theorem C71_put_partial (E : Env) (s s' : SV) (n : Str) (v : Val) (old : Except NoVal Val) (hd : (s.fields.map (·.1)).Nodup) (hv : v ≠ .nil)
    (h : s.put E (.str n) v = some (s', old)) :
    s.get E (.str n) = some old ∧ s'.keys = s.keys ∧ (∀ k, k ≠ .str n → s'.get E k = s.get E k) ∧
      ∃ p g, locate s.fields n = some (p, .plain g) ∧ (Survives E g.type v → WF v → s'.get E (.str n) = some (.ok v)) := by
  unfold SV.put at h
  by_cases hfr : s.frozen = true
  · rw [if_pos hfr] at h; cases h
  rw [if_neg hfr] at h
  simp only at h
  cases hl : locate s.fields n with
  | none => rw [hl] at h; cases h
  | some pf =>
    obtain ⟨p, f⟩ := pf
    rw [hl] at h
    simp only [Option.bind] at h
    split at h
    · cases h
    split at h
    · rename_i had
      cases f with
      | embedded gs =>
        cases v <;> first | exact absurd rfl hv | cases h
      | plain g =>
        rw [Field.set] at h
        cases hr : reflectTo E v g.type with
        | none => rw [hr] at h; cases h
        | some g' =>
          rw [hr] at h
          simp only [Option.map, Option.some.injEq, Prod.mk.injEq] at h
          obtain ⟨rfl, rfl⟩ := h
          refine ⟨by rw [SV.get, hl]; rfl, ?_, ?_, p, g, rfl, ?_⟩
          · have := congrArg (List.map Val.str) (write_names (.plain g') s.fields p)
            rw [List.map_map, List.map_map] at this
            exact this
          · intro k hk
            cases k <;> try rfl
            rename_i m
            rw [SV.get, SV.get]
            exact locate_write_other g' hd hl (fun h => hk (by rw [h]))
          · intro hs hw
            rw [SV.get, locate_write g' hd hl]
            simp [Field.read, round v _ g' hr hs hw]
    · cases h

/-- `struct { Inner; B string }` with `struct Inner { X int; B bool }` -/
def Ex.s2 : SV where
  fields := [([73], .embedded [([88], .int .int 1), ([66], .bool true)]), ([66], .plain (.string Ex.a))]
  frozen := false
  addressable := true
example : (Ex.s2.fields.map (·.1)).Nodup ∧ ∃ s', Ex.s2.put Ex.E0 (.str [88]) (.int 2) = some (s', .ok (.int 1)) := ⟨by decide, _, rfl⟩

/-- **C71, frozen.**  A frozen struct never changes, whatever is called. -/
theorem C71_frozen (E : Env) (s : SV) (os : List SOp) : ((s.freeze E).1.run E os).1.entries E = s.entries E ∧
    ((s.freeze E).1.run E os).1.frozen = true ∧ (∀ k v, ((s.freeze E).1.run E os).1.put E k v = none) := by
  have hf : (s.freeze E).1.frozen = true ∧ (s.freeze E).1.fields = s.fields := by
    rw [SV.freeze]
    split
    · rename_i h; exact ⟨h, rfl⟩
    · exact ⟨rfl, rfl⟩
  rw [frozen_run hf.1]
  exact ⟨by rw [SV.entries, SV.entries, hf.2], hf.1, fun k v => frozen_put hf.1 k v⟩

example : (Ex.s1.freeze Ex.E0).1.frozen = true ∧ (Ex.s1.put Ex.E0 (.str [65]) (.int 1)).isSome = true := ⟨rfl, rfl⟩

/-- **C71, derived maps.**  `With`, `Without`, `WithoutAll`, `Map` and `Merge` of a struct are those of the map of its entries (`Spec` is the
specification of maps of C01). -/
theorem C71_derived_partial (E : Env) (s : SV) (es : List (Str × Val)) (h : Shows E s es) (k v : Val) (ks : List Val) (as : List (Val × Val)) (b : Bool)
    (f : Val → Val → Val) :
    s.withEntry E k v = .ok (.map (Spec.insert (asMap es) k v) s.frozen) ∧
    ((∃ e ∈ es, k = .str e.1) → s.without E k = .ok (.map (Spec.erase (asMap es) k) s.frozen)) ∧
    ((∀ e ∈ es, k ≠ .str e.1) → s.without E k = .ok (.struct s)) ∧
    s.withoutAll E ks = .ok (.map (Spec.eraseAll (asMap es) ks) s.frozen) ∧
    s.mapValues E f = .ok (.map ((asMap es).map fun e => (e.1, f e.1 e.2)) s.frozen) ∧
    (as ≠ [] → s.merge E as b = .ok (.map (Spec.insertAll (asMap es) as) (s.frozen && b))) ∧ s.merge E [] b = .ok (.struct s) := by
  obtain ⟨_, _, _, hget, hnone, _⟩ := C71_lookup_partial E s es h
  refine ⟨by rw [SV.withEntry, toMap_eq h]; rfl, ?_, ?_, by rw [SV.withoutAll, toMap_eq h]; rfl, by rw [SV.mapValues, toMap_eq h]; rfl, ?_, rfl⟩
  · rintro ⟨e, he, rfl⟩
    rw [SV.without, hget e.1 e.2 he, toMap_eq h]
    rfl
  · intro hk
    rw [SV.without, hnone k hk]
  · intro ha
    rw [SV.merge, toMap_eq h]
    cases as with
    | nil => exact absurd rfl ha
    | cons a as => rfl

example : Ex.s1.withEntry Ex.E0 (.str [65]) (.int 300) = .ok (.map [(.str [65], .int 300), (.str [66], .arr [.str Ex.a]), (.str [67], .nil)] false) ∧
    Ex.s1.without Ex.E0 (.str [66]) = .ok (.map [(.str [65], .int 5), (.str [67], .nil)] false) := by
  rw [(C71_derived_partial Ex.E0 Ex.s1 Ex.es1 Ex.shows1 (.str [65]) (.int 300) [] [] false fun _ v => v).1,
    (C71_derived_partial Ex.E0 Ex.s1 Ex.es1 Ex.shows1 (.str [66]) .nil [] [] false fun _ v => v).2.1 ⟨_, List.mem_cons_of_mem _ List.mem_cons_self, rfl⟩]
  exact ⟨by rfl, by rfl⟩

/-- **C71, equality.**  A struct is equal to a map, a map to a struct, and a struct to a struct, if and only if the maps of the entries are
equal; and it has the hash code of that map. -/
theorem C71_equals_partial (E : Env) (s s' : SV) (es es' : List (Str × Val)) (h : Shows E s es) (h' : Shows E s' es') (bs : List (Val × Val)) (b : Bool) :
    mapEqual E (.struct s) (.map bs b) = .ok (eq (.map (asMap es)) (.map bs)) ∧
    mapEqual E (.map bs b) (.struct s) = .ok (eq (.map bs) (.map (asMap es))) ∧
    mapEqual E (.struct s) (.struct s') = .ok (eq (.map (asMap es)) (.map (asMap es'))) ∧
    s.hashCode E = .ok (hash (.map (asMap es))) := by
  have v := view_eq h false
  have v' := view_eq h' false
  refine ⟨?_, ?_, ?_, ?_⟩
  · rw [← mapEqual_maps (E := E) _ _ false b, mapEqual, mapEqual, v]
  · rw [← mapEqual_maps (E := E) _ _ b false, mapEqual, mapEqual, v]
  · rw [← mapEqual_maps (E := E) _ _ false false, mapEqual, mapEqual, v, v']
  · have he : s.entries E = (asMap es).map fun e => (e.1, .ok e.2) := by
      rw [SV.entries, agree_entries h.fields, asMap, List.map_map]
      rfl
    rw [SV.hashCode, he, allRead_ok, Value.hash.eq_def]
    rfl

example : Shows Ex.E0 Ex.s1 Ex.es1 ∧ eq (.map (asMap Ex.es1)) (.map (asMap Ex.es1).reverse) = true := ⟨Ex.shows1, by decide +kernel⟩

/-- **C71 is violated.**  300 put in an `int8` field succeeds and is 44 afterwards; `nil` put in a `string` is the empty string. -/
theorem C71_put_violated (E : Env) :
    (∃ s', SV.put E Ex.s1 (.str [65]) (.int 300) = some (s', .ok (.int 5)) ∧ s'.get E (.str [65]) = some (.ok (.int 44))) ∧
    (∃ s', SV.put E Ex.s2 (.str [66]) .nil = some (s', .ok (.str Ex.a)) ∧ s'.get E (.str [66]) = some (.ok (.str []))) :=
  ⟨⟨_, rfl, rfl⟩, ⟨_, rfl, rfl⟩⟩

/-- `struct { Inner }` with `struct Inner { X int }`, X = 1 -/
def Ex.s3 : SV := ⟨[([73], .embedded [([88], .int .int 1)])], false, true⟩

/-- **C71 is violated by embedded structs.**  `Get` and `ContainsKey` know the field `X` of an embedded struct, `Keys` does not.  The map
`{"X": 1}` is equal to `struct { Inner }` with `X` = 1 in `Inner`, but that is not equal to the map.  `Freeze` panics, and the
struct is frozen afterwards. -/
theorem C71_embedded_violated (E : Env) :
    (Ex.s3.get E (.str [88]) = some (.ok (.int 1)) ∧ Ex.s3.containsKey (.str [88]) = true ∧ Ex.s3.keys = [.str [73]]) ∧
    (mapEqual E (.map [(.str [88], .int 1)] false) (.struct Ex.s3) = .ok true ∧ mapEqual E (.struct Ex.s3) (.map [(.str [88], .int 1)] false) = .ok false) ∧
    ((Ex.s3.freeze E).2 = false ∧ (Ex.s3.freeze E).1.frozen = true) := by
  refine ⟨⟨rfl, rfl, rfl⟩, ⟨?_, rfl⟩, rfl, rfl⟩
  rfl

/-- **C71 is violated by structs that are not given by a pointer.**  Such a struct is not frozen, but every put panics. -/
theorem C71_value_violated (E : Env) (s : SV) (h : s.addressable = false) (k v : Val) : s.put E k v = none := by
  unfold SV.put
  split
  · rfl
  · split
    · cases hl : locate s.fields _ with
      | none => rfl
      | some pf =>
        simp only [Option.bind, h]
        split <;> rfl
    · rfl

example : ({ Ex.s1 with addressable := false } : SV).frozen = false := rfl

end Verif.Reflect
