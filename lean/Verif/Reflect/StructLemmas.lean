import Verif.Reflect.StructSpec
import Verif.Reflect.Reads
/-!
# Lemmas about structs as maps
-/
set_option autoImplicit false
set_option linter.unusedVariables false
set_option linter.unusedSimpArgs false
set_option linter.unnecessarySeqFocus false
namespace Verif.Reflect
open Verif.Value

variable {E : Env}

/-! ## Reading -/

/-- Of the fields and the entries: as in `Shows` -/
abbrev Agree (E : Env) (fs : List (Str × Field)) (es : List (Str × Val)) : Prop :=
  List.Forall₂ (fun f e => f.1 = e.1 ∧ ∃ g, f.2 = .plain g ∧ fromReflected E g = .ok e.2) fs es

theorem agree_len {fs : List (Str × Field)} {es : List (Str × Val)} (h : Agree E fs es) : fs.length = es.length := h.length_eq

theorem agree_names {fs : List (Str × Field)} {es : List (Str × Val)} (h : Agree E fs es) : fs.map (·.1) = es.map (·.1) := by
  induction h with
  | nil => rfl
  | cons h _ ih => simp [h.1, ih]

theorem agree_entries {fs : List (Str × Field)} {es : List (Str × Val)} (h : Agree E fs es) :
    (fs.map fun f => ((.str f.1 : Val), f.2.read E)) = es.map fun e => (.str e.1, .ok e.2) := by
  induction h with
  | nil => rfl
  | @cons f e _ _ h _ ih =>
    obtain ⟨h1, g, h2, h3⟩ := h
    rw [List.map_cons, List.map_cons, ih, h1, h2, Field.read, h3]

theorem agree_promoted {fs : List (Str × Field)} {es : List (Str × Val)} (h : Agree E fs es) (n : Str) : promoted n fs = [] := by
  induction h with
  | nil => rfl
  | @cons f e _ _ h _ ih =>
    obtain ⟨a, b⟩ := f
    obtain ⟨h1, g, h2, h3⟩ := h
    simp only at h2
    subst h2
    rw [promoted]; exact ih

theorem agree_lookup {fs : List (Str × Field)} {es : List (Str × Val)} (h : Agree E fs es) (n : Str) :
    (∃ g v, fs.lookup n = some (.plain g) ∧ es.lookup n = some v ∧ fromReflected E g = .ok v) ∨ (fs.lookup n = none ∧ es.lookup n = none) := by
  induction h with
  | nil => right; exact ⟨rfl, rfl⟩
  | @cons f e _ _ h _ ih =>
    obtain ⟨a, b⟩ := f
    obtain ⟨c, d⟩ := e
    obtain ⟨h1, g, h2, h3⟩ := h
    simp only at h1 h2 h3
    subst h1 h2
    rw [List.lookup_cons, List.lookup_cons]
    cases hn : n == a with
    | true => left; exact ⟨g, d, rfl, rfl, h3⟩
    | false => exact ih

theorem agree_locate {fs : List (Str × Field)} {es : List (Str × Val)} (h : Agree E fs es) (n : Str) :
    (∃ g v, locate fs n = some (.top n, .plain g) ∧ fs.lookup n = some (.plain g) ∧ es.lookup n = some v ∧ fromReflected E g = .ok v) ∨
      (locate fs n = none ∧ es.lookup n = none) := by
  rw [locate]
  rcases agree_lookup h n with ⟨g, v, h1, h2, h3⟩ | ⟨h1, h2⟩
  · left; exact ⟨g, v, by rw [h1], h1, h2, h3⟩
  · right; rw [h1, agree_promoted h]; exact ⟨rfl, h2⟩

theorem get_eq {s : SV} {es : List (Str × Val)} (h : Agree E s.fields es) (k : Val) : s.get E k = (Rec.value ⟨es, s.frozen⟩ k).map .ok := by
  cases k <;> try rfl
  rename_i n
  rw [SV.get, Rec.value]
  rcases agree_locate h n with ⟨g, v, h1, _, h2, h3⟩ | ⟨h1, h2⟩
  · rw [h1]; simp only [h2]; simp [Field.read, h3]
  · rw [h1]; simp only [h2]; rfl

theorem containsKey_eq {s : SV} {es : List (Str × Val)} (h : Agree E s.fields es) (k : Val) :
    s.containsKey k = (Rec.value ⟨es, s.frozen⟩ k).isSome := by
  cases k <;> try rfl
  rename_i n
  rw [SV.containsKey, Rec.value]
  rcases agree_locate h n with ⟨g, v, h1, _, h2, h3⟩ | ⟨h1, h2⟩
  · rw [h1]; simp only [h2]; rfl
  · rw [h1]; simp only [h2]; rfl

theorem mem_of_lookup {α : Type} {n : Str} : ∀ {l : List (Str × α)} {x : α}, l.lookup n = some x → (n, x) ∈ l
  | [], _, h => by cases h
  | (a, b) :: l, x, h => by
    rw [List.lookup_cons] at h
    cases hn : n == a with
    | true =>
      rw [hn] at h
      cases h
      rw [LawfulBEq.eq_of_beq hn]; exact List.mem_cons_self
    | false =>
      rw [hn] at h
      exact List.mem_cons_of_mem _ (mem_of_lookup h)

theorem lookup_mem {α : Type} {n : Str} {x : α} : ∀ {l : List (Str × α)}, (l.map (·.1)).Nodup → (n, x) ∈ l → l.lookup n = some x
  | [], _, h => by cases h
  | (a, b) :: l, hd, h => by
    rw [List.map_cons, List.nodup_cons] at hd
    rw [List.lookup_cons]
    rcases List.mem_cons.1 h with e | e
    · cases e; simp
    · have : (n == a) = false := by
        apply beq_false_of_ne
        rintro rfl
        exact hd.1 (List.mem_map.2 ⟨_, e, rfl⟩)
      rw [this]
      exact lookup_mem hd.2 e

/-! ## Writing -/

theorem setField_names {α : Type} (n : Str) (x : α) : ∀ l : List (Str × α), (setField n x l).map (·.1) = l.map (·.1)
  | [] => rfl
  | f :: l => by
    rw [setField]
    split
    · rfl
    · simp [setField_names n x l]

theorem setField_lookup {α : Type} (n m : Str) (x : α) : ∀ l : List (Str × α),
    (setField n x l).lookup m = if m = n then (l.lookup n).map fun _ => x else l.lookup m
  | [] => by simp [setField]
  | (a, b) :: l => by
    rw [setField]
    by_cases hn : n = a
    · subst hn
      rw [if_pos rfl, List.lookup_cons, List.lookup_cons, List.lookup_cons]
      by_cases hm : m = n
      · subst hm; simp
      · simp [hm, beq_false_of_ne hm]
    · rw [if_neg hn, List.lookup_cons, List.lookup_cons, List.lookup_cons, beq_false_of_ne hn]
      by_cases hm : m = a
      · subst hm
        have : m ≠ n := fun h => hn h.symm
        simp [this]
      · rw [beq_false_of_ne hm]
        exact setField_lookup n m x l

theorem agree_set {n : Str} {g : GV} {v : Val} (hg : fromReflected E g = .ok v) : ∀ {fs : List (Str × Field)} {es : List (Str × Val)},
    Agree E fs es → (es.map (·.1)).Nodup → Agree E (setField n (.plain g) fs) (es.map fun e => if e.1 = n then (n, v) else e)
  | _, _, .nil, _ => .nil
  | f :: fs, e :: es, .cons h hs, hd => by
    rw [List.map_cons, List.nodup_cons] at hd
    rw [setField, List.map_cons]
    by_cases hn : n = f.1
    · rw [if_pos hn, if_pos (by rw [← h.1]; exact hn.symm)]
      refine .cons ⟨hn.symm, g, rfl, hg⟩ ?_
      have : (es.map fun e => if e.1 = n then (n, v) else e) = es := by
        rw [List.map_congr_left, List.map_id]
        intro x hx
        rw [if_neg]
        · rfl
        intro hxn
        apply hd.1
        rw [← h.1, ← hn, ← hxn]
        exact List.mem_map.2 ⟨x, hx, rfl⟩
      rw [this]; exact hs
    · rw [if_neg hn, if_neg (by rw [← h.1]; exact fun h => hn h.symm)]
      exact .cons h (agree_set hg hs hd.2)

theorem set_names (n : Str) (v : Val) (es : List (Str × Val)) : (es.map fun e => if e.1 = n then (n, v) else e).map (·.1) = es.map (·.1) := by
  rw [List.map_map]
  apply List.map_congr_left
  intro e _
  simp only [Function.comp]
  split
  · rename_i h; exact h.symm
  · rfl

/-! ## Types of fields do not change -/

theorem setField_types {n : Str} {g g' : GV} : ∀ {fs : List (Str × Field)}, fs.lookup n = some (.plain g) → g'.type = g.type → (fs.map (·.1)).Nodup →
    ∀ m t, (∃ x, (m, Field.plain x) ∈ setField n (.plain g') fs ∧ x.type = t) ↔ ∃ x, (m, Field.plain x) ∈ fs ∧ x.type = t
  | [], h, _, _, _, _ => by cases h
  | (a, b) :: fs, h, hg, hd, m, t => by
    rw [List.map_cons, List.nodup_cons] at hd
    rw [List.lookup_cons] at h
    rw [setField]
    by_cases hn : n = a
    · subst hn
      rw [beq_self_eq_true] at h
      cases h
      simp only [if_pos]
      constructor
      · rintro ⟨x, hx, rfl⟩
        rcases List.mem_cons.1 hx with e | e
        · cases e; exact ⟨g, List.mem_cons_self, hg.symm⟩
        · exact ⟨x, List.mem_cons_of_mem _ e, rfl⟩
      · rintro ⟨x, hx, rfl⟩
        rcases List.mem_cons.1 hx with e | e
        · cases e; exact ⟨g', List.mem_cons_self, hg⟩
        · exact ⟨x, List.mem_cons_of_mem _ e, rfl⟩
    · rw [beq_false_of_ne hn] at h
      rw [if_neg hn]
      have ih := setField_types h hg hd.2 m t
      constructor
      · rintro ⟨x, hx, rfl⟩
        rcases List.mem_cons.1 hx with e | e
        · exact ⟨x, by rw [e]; exact List.mem_cons_self, rfl⟩
        · obtain ⟨y, hy, hyt⟩ := ih.1 ⟨x, e, rfl⟩
          exact ⟨y, List.mem_cons_of_mem _ hy, hyt⟩
      · rintro ⟨x, hx, rfl⟩
        rcases List.mem_cons.1 hx with e | e
        · exact ⟨x, by rw [e]; exact List.mem_cons_self, rfl⟩
        · obtain ⟨y, hy, hyt⟩ := ih.2 ⟨x, e, rfl⟩
          exact ⟨y, List.mem_cons_of_mem _ hy, hyt⟩

/-! ## One call -/

/-- The struct shows the record. -/
structure Sim (E : Env) (s : SV) (r : Rec) : Prop where
  shows : Shows E s r.es
  frozen : s.frozen = r.frozen
  addr : s.addressable = true ∨ s.frozen = true

theorem read_ok_panics {g : GV} {v : Val} (h : fromReflected E g = .ok v) : panics (fromReflected E g) = false := by rw [h]; rfl

theorem put_sim {s : SV} {r : Rec} (h : Sim E s r) (k v : Val) (hf : ∀ n t, k = .str n → HasType s n t → CanHold E t v) :
    (s.put E k v = none ∧ r.put k v = none) ∨
      ∃ s' r' o, s.put E k v = some (s', .ok o) ∧ r.put k v = some (r', o) ∧ Sim E s' r' ∧ ∀ m t, HasType s' m t ↔ HasType s m t := by
  obtain ⟨⟨hA, hD⟩, hfr, had⟩ := h
  unfold SV.put Rec.put
  rw [hfr]
  cases hb : r.frozen with
  | true => left; exact ⟨rfl, rfl⟩
  | false =>
    have had : s.addressable = true := by
      rcases had with h | h
      · exact h
      · rw [hfr, hb] at h; cases h
    simp only [Bool.false_eq_true, if_false]
    cases k <;> try exact .inl ⟨rfl, rfl⟩
    rename_i n
    simp only
    rcases agree_locate hA n with ⟨g, w, h1, h2, h3, h4⟩ | ⟨h1, h2⟩
    · right
      obtain ⟨⟨g', hg'⟩, hsv, hw⟩ := hf n g.type rfl ⟨g, mem_of_lookup h2, rfl⟩
      rw [h1, h3]
      simp only [Option.bind, Field.read, read_ok_panics h4, Bool.false_eq_true, if_false, had, if_true, Field.set, hg', Option.map, write, h4]
      have hty : g'.type = g.type := (typed v _ g' hg').1
      refine ⟨_, _, w, rfl, rfl, ⟨⟨agree_set (round v _ g' hg' hsv hw) hA hD, ?_⟩, by simp only [hfr, hb], .inl rfl⟩, ?_⟩
      · simp only
        rw [set_names]
        exact hD
      · exact setField_types h2 hty (by rw [agree_names hA]; exact hD)
    · left; rw [h1, h2]; exact ⟨rfl, rfl⟩

theorem putAll_sim : ∀ (es : List (Val × Val)) {s : SV} {r : Rec}, Sim E s r → (∀ e ∈ es, ∀ n t, e.1 = .str n → HasType s n t → CanHold E t e.2) →
    Sim E (s.putAll E es).1 (r.putAll es).1 ∧ (s.putAll E es).2 = (r.putAll es).2 ∧ ∀ m t, HasType (s.putAll E es).1 m t ↔ HasType s m t
  | [], s, r, h, _ => ⟨h, rfl, fun _ _ => Iff.rfl⟩
  | (k, v) :: es, s, r, h, hf => by
    rw [SV.putAll, Rec.putAll]
    rcases put_sim h k v (hf (k, v) List.mem_cons_self) with ⟨h1, h2⟩ | ⟨s', r', o, h1, h2, h3, h4⟩
    · rw [h1, h2]; exact ⟨h, rfl, fun _ _ => Iff.rfl⟩
    · rw [h1, h2]
      obtain ⟨a, b, c⟩ := putAll_sim es h3 (fun e he n t hn ht => hf e (List.mem_cons_of_mem _ he) n t hn ((h4 n t).1 ht))
      exact ⟨a, b, fun m t => (c m t).trans (h4 m t)⟩

theorem freeze_ok {fs : List (Str × Field)} {es : List (Str × Val)} (h : Agree E fs es) : (fs.all fun f => !SV.Field.stuck E f.2) = true := by
  induction h with
  | nil => rfl
  | @cons f e _ _ h _ ih =>
    obtain ⟨h1, g, h2, h3⟩ := h
    rw [List.all_cons, ih, h2, SV.Field.stuck, native_not h3, h3]
    rfl

theorem step_sim {s : SV} {r : Rec} (h : Sim E s r) (o : SOp) (hf : Fits E s o) :
    Sim E (s.step E o).1 (r.step o).1 ∧ (s.step E o).2 = (r.step o).2 ∧ ∀ m t, HasType (s.step E o).1 m t ↔ HasType s m t := by
  have hA := h.shows.fields
  cases o with
  | len => exact ⟨h, by simp [SV.step, Rec.step, SV.len, agree_len hA], fun _ _ => Iff.rfl⟩
  | keys =>
    refine ⟨h, ?_, fun _ _ => Iff.rfl⟩
    simp only [SV.step, Rec.step, SV.keys]
    have := congrArg (List.map Val.str) (agree_names hA)
    rw [List.map_map, List.map_map] at this
    exact congrArg SOut.vals this
  | entries => exact ⟨h, congrArg SOut.entries (agree_entries hA), fun _ _ => Iff.rfl⟩
  | get k => exact ⟨h, congrArg SOut.val (get_eq hA k), fun _ _ => Iff.rfl⟩
  | containsKey k => exact ⟨h, congrArg SOut.bool (containsKey_eq hA k), fun _ _ => Iff.rfl⟩
  | put k v =>
    rw [SV.step, Rec.step]
    rcases put_sim h k v hf with ⟨h1, h2⟩ | ⟨s', r', o, h1, h2, h3, h4⟩
    · rw [h1, h2]; exact ⟨h, rfl, fun _ _ => Iff.rfl⟩
    · rw [h1, h2]; exact ⟨h3, rfl, h4⟩
  | putAll es =>
    obtain ⟨a, b, c⟩ := putAll_sim es h hf
    exact ⟨a, by simp only [SV.step, Rec.step, b], c⟩
  | remove k => exact ⟨h, rfl, fun _ _ => Iff.rfl⟩
  | removeAll ks => exact ⟨h, rfl, fun _ _ => Iff.rfl⟩
  | freeze =>
    rw [SV.step, Rec.step, SV.freeze]
    by_cases hb : s.frozen = true
    · simp only [hb, if_true]
      exact ⟨⟨h.shows, hb, h.addr⟩, trivial, fun _ _ => trivial⟩
    · simp only [hb, if_false, freeze_ok hA, if_true, Bool.false_eq_true]
      exact ⟨⟨⟨hA, h.shows.distinct⟩, rfl, .inr rfl⟩, trivial, fun _ _ => Iff.rfl⟩

theorem fits_congr {s s' : SV} (h : ∀ m t, HasType s' m t ↔ HasType s m t) {o : SOp} (hf : Fits E s o) : Fits E s' o := by
  cases o <;> try exact hf
  · intro n t hn ht; exact hf n t hn ((h n t).1 ht)
  · intro e he n t hn ht; exact hf e he n t hn ((h n t).1 ht)

theorem run_sim : ∀ (os : List SOp) {s : SV} {r : Rec}, Sim E s r → (∀ o ∈ os, Fits E s o) →
    Sim E (s.run E os).1 (r.run os).1 ∧ (s.run E os).2 = (r.run os).2
  | [], s, r, h, _ => ⟨h, rfl⟩
  | o :: os, s, r, h, hf => by
    obtain ⟨a, b, c⟩ := step_sim h o (hf o List.mem_cons_self)
    obtain ⟨d, e⟩ := run_sim os a (fun x hx => fits_congr c (hf x (List.mem_cons_of_mem _ hx)))
    rw [SV.run, Rec.run]
    exact ⟨d, by simp only [b, e]⟩

/-! ## Frozen structs -/

theorem frozen_put {s : SV} (h : s.frozen = true) (k v : Val) : s.put E k v = none := by unfold SV.put; rw [if_pos h]

theorem frozen_step {s : SV} (h : s.frozen = true) (o : SOp) : (s.step E o).1 = s := by
  cases o <;> try rfl
  · rw [SV.step, frozen_put h]
  · rename_i es
    cases es with
    | nil => rfl
    | cons e es => simp only [SV.step]; rw [SV.putAll, frozen_put h]
  · simp only [SV.step, SV.freeze, h, if_true]

theorem frozen_run {s : SV} (h : s.frozen = true) : ∀ os : List SOp, (s.run E os).1 = s
  | [] => rfl
  | o :: os => by rw [SV.run]; simp only [frozen_step h]; exact frozen_run h os

/-! ## Put in general -/

theorem promoted_setField {n m : Str} {g g' : GV} : ∀ {fs : List (Str × Field)}, fs.lookup n = some (.plain g) →
    promoted m (setField n (.plain g') fs) = promoted m fs
  | [], h => by cases h
  | (a, b) :: fs, h => by
    rw [List.lookup_cons] at h
    rw [setField]
    by_cases hn : n = a
    · subst hn
      rw [beq_self_eq_true] at h
      cases h
      simp [promoted]
    · rw [beq_false_of_ne hn] at h
      rw [if_neg hn]
      cases b with
      | plain x => rw [promoted, promoted]; exact promoted_setField h
      | embedded gs =>
        rw [promoted, promoted, promoted_setField h]

theorem setSub_names (o n : Str) (x : Field) : ∀ fs : List (Str × Field), (setSub o n x fs).map (·.1) = fs.map (·.1)
  | [] => rfl
  | (a, .plain g) :: fs => by rw [setSub, List.map_cons, setSub_names o n x fs]; rfl; simp
  | (a, .embedded gs) :: fs => by
    by_cases ho : o = a
    · cases x <;> rw [setSub, if_pos ho] <;> rfl
    · cases x <;> rw [setSub, if_neg ho, List.map_cons, setSub_names] <;> rfl

theorem lookup_isSome_names {α β : Type} : ∀ {l : List (Str × α)} {l' : List (Str × β)}, l.map (·.1) = l'.map (·.1) → ∀ m,
    (l.lookup m).isSome = (l'.lookup m).isSome
  | [], [], _, _ => rfl
  | [], _ :: _, h, _ => by cases h
  | _ :: _, [], h, _ => by cases h
  | (a, b) :: l, (c, d) :: l', h, m => by
    simp only [List.map_cons, List.cons.injEq] at h
    obtain ⟨rfl, h⟩ := h
    rw [List.lookup_cons, List.lookup_cons]
    cases m == a with
    | true => rfl
    | false => exact lookup_isSome_names h m

/-- Where promoted fields are -/
theorem mem_promoted {n : Str} : ∀ {fs : List (Str × Field)} {p : Path} {f : Field}, (p, f) ∈ promoted n fs →
    ∃ o gs g, p = .sub o n ∧ f = .plain g ∧ (o, Field.embedded gs) ∈ fs ∧ gs.lookup n = some g
  | [], _, _, h => by cases h
  | (a, .plain _) :: fs, p, f, h => by
    rw [promoted] at h
    obtain ⟨o, gs, g, h1, h2, h3, h4⟩ := mem_promoted h
    exact ⟨o, gs, g, h1, h2, List.mem_cons_of_mem _ h3, h4⟩
  | (a, .embedded gs) :: fs, p, f, h => by
    rw [promoted] at h
    have tail : (p, f) ∈ promoted n fs → ∃ o gs' g, p = .sub o n ∧ f = .plain g ∧ (o, Field.embedded gs') ∈ (a, Field.embedded gs) :: fs ∧ gs'.lookup n = some g := by
      intro h
      obtain ⟨o, gs, g, h1, h2, h3, h4⟩ := mem_promoted h
      exact ⟨o, gs, g, h1, h2, List.mem_cons_of_mem _ h3, h4⟩
    split at h
    · rename_i g hg
      rcases List.mem_cons.1 h with e | e
      · cases e; exact ⟨a, gs, g, rfl, rfl, List.mem_cons_self, hg⟩
      · exact tail e
    · exact tail h

theorem promoted_setSub_other {o n m : Str} {g : GV} (hm : m ≠ n) : ∀ (fs : List (Str × Field)),
    promoted m (setSub o n (.plain g) fs) = promoted m fs
  | [] => rfl
  | (a, .plain _) :: fs => by rw [setSub, promoted, promoted]; exact promoted_setSub_other hm fs; simp
  | (a, .embedded gs) :: fs => by
    rw [setSub]
    split
    · rw [promoted, promoted, setField_lookup, if_neg hm]
    · rw [promoted, promoted, promoted_setSub_other hm fs]

/-- After the assignment, the fields of that name are the same with the new value in place. -/
theorem promoted_setSub {o n : Str} {g : GV} : ∀ (fs : List (Str × Field)), (fs.map (·.1)).Nodup →
    promoted n (setSub o n (.plain g) fs) = (promoted n fs).map fun pf => if pf.1 = .sub o n then (pf.1, .plain g) else pf
  | [], _ => rfl
  | (a, .plain _) :: fs, hd => by
    rw [List.map_cons, List.nodup_cons] at hd
    rw [setSub, promoted, promoted]; exact promoted_setSub fs hd.2; simp
  | (a, .embedded gs) :: fs, hd => by
    rw [List.map_cons, List.nodup_cons] at hd
    rw [setSub]
    by_cases ho : o = a
    · subst ho
      simp only [if_true]
      have same : (promoted n fs).map (fun pf => if pf.1 = .sub o n then (pf.1, Field.plain g) else pf) = promoted n fs := by
        rw [List.map_congr_left, List.map_id]
        rintro ⟨p, f⟩ hp
        rw [if_neg]
        · rfl
        rintro rfl
        obtain ⟨o', gs', g', h1, _, h3, _⟩ := mem_promoted hp
        cases h1
        exact hd.1 (List.mem_map.2 ⟨_, h3, rfl⟩)
      rw [promoted, promoted, setField_lookup, if_pos rfl]
      cases hl : gs.lookup n with
      | none => simp only [Option.map]; exact same.symm
      | some x => simp only [Option.map, List.map_cons, if_true, same]
    · rw [if_neg ho, promoted, promoted, promoted_setSub fs hd.2]
      cases hl : gs.lookup n with
      | none => rfl
      | some x =>
        simp only [List.map_cons]
        rw [if_neg (by simpa using fun h => ho h.symm)]

theorem setSub_lookup {o n m : Str} {g : GV} : ∀ (fs : List (Str × Field)) (f : Field), (setSub o n (.plain g) fs).lookup m = some f →
    ∃ f', fs.lookup m = some f' ∧ f.read E = f'.read E
  | [], _, h => by cases h
  | (a, .plain x) :: fs, f, h => by
    rw [setSub, List.lookup_cons] at h
    · rw [List.lookup_cons]
      cases hm : m == a with
      | true => rw [hm] at h; cases h; exact ⟨_, rfl, rfl⟩
      | false => rw [hm] at h; exact setSub_lookup fs f h
    · simp
  | (a, .embedded gs) :: fs, f, h => by
    rw [setSub] at h
    rw [List.lookup_cons]
    by_cases ho : o = a
    · simp only [if_pos ho] at h
      rw [List.lookup_cons] at h
      cases hm : m == a with
      | true => rw [hm] at h; cases h; exact ⟨_, rfl, rfl⟩
      | false => rw [hm] at h; exact ⟨f, h, rfl⟩
    · rw [if_neg ho, List.lookup_cons] at h
      cases hm : m == a with
      | true => rw [hm] at h; cases h; exact ⟨_, rfl, rfl⟩
      | false => rw [hm] at h; exact setSub_lookup fs f h

theorem write_names (x : Field) (fs : List (Str × Field)) (p : Path) : (write x fs p).map (·.1) = fs.map (·.1) := by
  cases p with
  | top n => exact setField_names n x fs
  | sub o n => exact setSub_names o n x fs

theorem locate_write {fs : List (Str × Field)} {n : Str} {p : Path} {g : GV} (g' : GV) (hd : (fs.map (·.1)).Nodup)
    (hl : locate fs n = some (p, .plain g)) : locate (write (.plain g') fs p) n = some (p, .plain g') := by
  unfold locate at hl ⊢
  cases h : fs.lookup n with
  | some f =>
    rw [h] at hl
    simp only [Option.some.injEq, Prod.mk.injEq] at hl
    obtain ⟨rfl, rfl⟩ := hl
    rw [write, setField_lookup, if_pos rfl, h]
    rfl
  | none =>
    rw [h] at hl
    simp only at hl
    cases hp : promoted n fs with
    | nil => rw [hp] at hl; cases hl
    | cons q qs =>
      cases qs with
      | cons _ _ => rw [hp] at hl; cases hl
      | nil =>
        rw [hp] at hl
        simp only [Option.some.injEq] at hl
        obtain ⟨o, gs, x, rfl, h2, h3, h4⟩ := mem_promoted (p := p) (f := .plain g) (by rw [hp, hl]; exact List.mem_singleton.2 rfl)
        have hn := lookup_isSome_names (write_names (.plain g') fs (.sub o n)) n
        rw [h] at hn
        cases hw : (write (.plain g') fs (.sub o n)).lookup n with
        | some y => rw [hw] at hn; cases hn
        | none =>
          simp only
          rw [write, promoted_setSub fs hd, hp, hl]
          simp

theorem locate_write_other {fs : List (Str × Field)} {n m : Str} {p : Path} {g : GV} (g' : GV) (hd : (fs.map (·.1)).Nodup)
    (hl : locate fs n = some (p, .plain g)) (hm : m ≠ n) :
    (locate (write (.plain g') fs p) m).map (fun pf => pf.2.read E) = (locate fs m).map fun pf => pf.2.read E := by
  unfold locate at hl ⊢
  cases h : fs.lookup n with
  | some f =>
    rw [h] at hl
    simp only [Option.some.injEq, Prod.mk.injEq] at hl
    obtain ⟨rfl, rfl⟩ := hl
    rw [write, setField_lookup, if_neg hm, promoted_setField h]
  | none =>
    rw [h] at hl
    simp only at hl
    cases hp : promoted n fs with
    | nil => rw [hp] at hl; cases hl
    | cons q qs =>
      cases qs with
      | cons _ _ => rw [hp] at hl; cases hl
      | nil =>
        rw [hp] at hl
        simp only [Option.some.injEq] at hl
        obtain ⟨o, gs, x, rfl, h2, h3, h4⟩ := mem_promoted (p := p) (f := .plain g) (by rw [hp, hl]; exact List.mem_singleton.2 rfl)
        have hn := lookup_isSome_names (write_names (.plain g') fs (.sub o n)) m
        rw [write] at hn ⊢
        cases hw : (setSub o n (.plain g') fs).lookup m with
        | some y =>
          obtain ⟨f', hf, hr⟩ := setSub_lookup (E := E) fs y hw
          rw [hf]
          simp [hr]
        | none =>
          rw [hw] at hn
          cases hf : fs.lookup m with
          | some y => rw [hf] at hn; cases hn
          | none => simp only; rw [promoted_setSub_other hm]

/-! ## Derived maps -/

theorem allRead_ok (es : List (Val × Val)) : allRead (es.map fun e => (e.1, .ok e.2)) = .ok es := by
  induction es with
  | nil => rfl
  | cons e es ih => rw [List.map_cons, allRead, ih]; rfl

/-- Keys that are strings are equal if they are the same. -/
theorem eq_str (k : Val) (n : Str) : eq k (.str n) = true ↔ k = .str n := by cases k <;> simp [eq]

theorem asMap_distinct {es : List (Str × Val)} (h : (es.map (·.1)).Nodup) : HMap.Spec.DistinctKeys (asMap es) := by
  induction es with
  | nil => exact .nil
  | cons e es ih =>
    rw [List.map_cons, List.nodup_cons] at h
    refine List.Pairwise.cons ?_ (ih h.2)
    intro x hx
    obtain ⟨y, hy, rfl⟩ := List.mem_map.1 hx
    apply Bool.eq_false_iff.2
    intro hb
    have := (eq_str _ _).1 hb
    simp only [Val.str.injEq] at this
    exact absurd (List.mem_map.2 ⟨y, hy, this.symm⟩) h.1

theorem insert_new {es : List (Val × Val)} {k v : Val} (h : ∀ e ∈ es, eq k e.1 = false) : HMap.Spec.insert es k v = es ++ [(k, v)] := by
  have : HMap.Spec.lookup k es = none := by
    unfold HMap.Spec.lookup
    rw [Option.map_eq_none_iff, List.find?_eq_none]
    intro x hx
    have hx' := h x hx
    change ¬eq k x.1 = true
    rw [hx']; simp
  rw [HMap.Spec.insert, this]
  rfl

theorem insertAll_new : ∀ (as es : List (Val × Val)), HMap.Spec.DistinctKeys (es ++ as) → (∀ e ∈ es, ∀ a ∈ as, eq a.1 e.1 = false) →
    (∀ a ∈ as, ∀ b ∈ as, eq a.1 b.1 = eq b.1 a.1) → HMap.Spec.insertAll es as = es ++ as
  | [], es, _, _, _ => by simp [HMap.Spec.insertAll]
  | a :: as, es, h, hs, hc => by
    have ha : HMap.Spec.insert es a.1 a.2 = es ++ [a] := insert_new (fun e he => hs e he a List.mem_cons_self)
    rw [HMap.Spec.insertAll, List.foldl_cons, ha]
    have ih := insertAll_new as (es ++ [a]) (by simpa using h) ?_ (fun x hx y hy => hc x (List.mem_cons_of_mem _ hx) y (List.mem_cons_of_mem _ hy))
    · rw [HMap.Spec.insertAll] at ih
      rw [ih]; simp
    · intro e he b hb
      rcases List.mem_append.1 he with he | he
      · exact hs e he b (List.mem_cons_of_mem _ hb)
      · have := List.mem_singleton.1 he
        subst this
        rw [hc b (List.mem_cons_of_mem _ hb) e List.mem_cons_self]
        have h2 := (List.pairwise_append.1 h).2.1
        exact (List.pairwise_cons.1 h2).1 b hb

theorem toMap_eq {s : SV} {es : List (Str × Val)} (h : Shows E s es) : s.toMap E = .ok (asMap es) := by
  have he : s.entries E = (asMap es).map fun e => (e.1, .ok e.2) := by
    rw [SV.entries, agree_entries h.fields, asMap, List.map_map]
    rfl
  rw [SV.toMap, he, allRead_ok]
  have := insertAll_new (asMap es) [] (asMap_distinct h.distinct) (fun _ h => by cases h) ?_
  · simp only [Except.map, this, List.nil_append]
  · intro a ha b hb
    obtain ⟨x, _, rfl⟩ := List.mem_map.1 ha
    obtain ⟨y, _, rfl⟩ := List.mem_map.1 hb
    simp only [eq]
    exact BEq.comm

/-! ## Equality -/

theorem find_asMap (es : List (Str × Val)) (k : Val) (b : Bool) : ((asMap es).find? fun e => eq k e.1).map (·.2) = Rec.value ⟨es, b⟩ k := by
  cases k with
  | str n =>
    simp only [Rec.value, asMap]
    induction es with
    | nil => rfl
    | cons e es ih =>
      rw [List.map_cons, List.find?_cons, List.lookup_cons]
      simp only [eq]
      cases n == e.1 with
      | true => rfl
      | false => exact ih
  | _ =>
    simp only [Rec.value, asMap, Option.map_eq_none_iff, List.find?_eq_none]
    intro x hx
    obtain ⟨y, _, rfl⟩ := List.mem_map.1 hx
    simp [eq]

theorem sameEntries_maps (bs : List (Val × Val)) : ∀ as : List (Val × Val),
    sameEntries (fun k => (bs.find? fun e => eq k e.1).map fun e => .ok e.2) (as.map fun e => (e.1, .ok e.2)) = .ok (eqMap as bs)
  | [] => rfl
  | (k, v) :: as => by
    rw [List.map_cons, sameEntries, eqMap]
    simp only
    cases h : bs.find? fun e => eq k e.1 with
    | none => rfl
    | some w =>
      have ih := sameEntries_maps bs as
      change (if eq v w.2 = true then _ else _) = Except.ok (eq v w.2 && eqMap as bs)
      rw [ih]
      cases eq v w.2 <;> rfl

/-- A struct and the map of its entries look the same. -/
theorem view_eq {s : SV} {es : List (Str × Val)} (h : Shows E s es) (b : Bool) : (AnyMap.struct s).view E = (AnyMap.map (asMap es) b).view E := by
  have he : s.entries E = (asMap es).map fun e => (e.1, .ok e.2) := by
    rw [SV.entries, agree_entries h.fields, asMap, List.map_map]
    rfl
  simp only [AnyMap.view, he, View.mk.injEq, true_and]
  refine ⟨by simp [SV.len, asMap, agree_len h.fields], ?_⟩
  funext k
  rw [get_eq h.fields, ← find_asMap, Option.map_map]
  rfl

theorem mapEqual_maps (as bs : List (Val × Val)) (f f' : Bool) : mapEqual E (.map as f) (.map bs f') = .ok (eq (.map as) (.map bs)) := by
  change (if as.length = bs.length then sameEntries _ _ else _) = _
  have hm := sameEntries_maps bs as
  change sameEntries ((AnyMap.map bs f').view E).get ((AnyMap.map as f).view E).entries = _ at hm
  rw [hm, eq]
  by_cases h : as.length = bs.length
  · rw [if_pos h, h]; simp
  · rw [if_neg h, beq_false_of_ne h]; rfl

end Verif.Reflect
