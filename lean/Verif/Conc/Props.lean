import Verif.Conc.Alias
import Verif.Conc.Named
import Verif.Conc.Loader
import Verif.Conc.Namespace
import Verif.Conc.Tree
/-!
# C41 - C45: what is shared between goroutines

`Steps` are any number of actions of any number of calls in any order, so the theorems hold of all schedules.
-/
set_option autoImplicit false
namespace Verif.Conc

/-! ### C41: the alias map -/
namespace Alias

/-- **C41.**  When `AddAliases` has returned, every name that was added resolves, and to a type that some call added under that
name.  (`look n s.cur` is `GetType(n)` of the alias map; `b` and `a` are what the call was backed by and what it added.) -/
theorem C41_not_lost {E : Env} {m0 : AMap} {s : St} (hs : Steps E (St.init m0) s) {i : Nat} {b a : AMap}
    (hi : s.th i = .returned b a) {n : Name} {t : T} (ht : look n a = some t) :
    ∃ r, look n s.cur = some r ∧ ∃ i' b' a' t', (s.th i' = .written b' a' ∨ s.th i' = .returned b' a') ∧
      look n a' = some t' ∧ Resolved E b' a' t' r :=
  ((Inv.init E m0).steps hs).kept i b a n t (Or.inr hi) ht

/-- **C41.**  What a name resolves to is what it resolved to at the start, or was added under that name by some call. -/
theorem C41_origin {E : Env} {m0 : AMap} {s : St} (hs : Steps E (St.init m0) s) {n : Name} {r : T} (h : look n s.cur = some r) :
    look n m0 = some r ∨ ∃ i b a t, (s.th i = .written b a ∨ s.th i = .returned b a) ∧ look n a = some t ∧ Resolved E b a t r :=
  ((Inv.init E m0).steps hs).origin n r h

/-- **C41.**  A name that resolves never stops to resolve. -/
theorem C41_stays {E : Env} {m0 : AMap} {s s' : St} (hs : Steps E (St.init m0) s) (hs' : Steps E s s') {n : Name}
    (h : (look n s.cur).isSome = true) : (look n s'.cur).isSome = true := by
  refine (steps_inv (P := fun s => Inv E m0 s ∧ (look n s.cur).isSome = true) ?_ ⟨(Inv.init E m0).steps hs, h⟩ hs').2
  clear h hs hs' s s'
  rintro s s' ⟨hi, h⟩ hs
  refine ⟨hi.step hs, ?_⟩
  cases hs with
  | @write i b a new hj =>
    have := update_look (hi.distinct i b a (by simp [hj])) (hi.updated i b a new hj) n
    split at this
    · simp only; rw [this]; exact h
    · obtain ⟨r, h1, _⟩ := this; simp only; rw [h1]; rfl
  | _ => exact h

/-- **C41.**  The lock is held by one call at a time. -/
theorem C41_exclusive {E : Env} {m0 : AMap} {s : St} (hs : Steps E (St.init m0) s) {i j : Nat}
    (hi : (s.th i).holds = true) (hj : (s.th j).holds = true) : i = j := by
  have h := (Inv.init E m0).steps hs
  have h1 := (h.lock i).1 hi
  rw [(h.lock j).1 hj] at h1
  exact (Option.some.inj h1).symm

namespace Ex
def E : Env := ⟨fun _ => none⟩
def int : T := .obj 1 []
def list : T := .obj 2 ["a"]
/-- two calls that start from the same map, and both publish -/
theorem two : ∃ s, Steps E (St.init []) s ∧ (∃ b, s.th 0 = .returned b [("a", int)]) ∧ (∃ b, s.th 1 = .returned b [("b", list), ("a", int)]) ∧
    look "a" s.cur = some int ∧ look "b" s.cur = some list := by
  have h1 := (Relation.ReflTransGen.refl (r := Step E) (a := St.init [])).tail (Step.start (i := 0) rfl)
  have h2 := h1.tail (Step.start (i := 1) rfl)
  have h3 := h2.tail (Step.add (i := 0) "a" int rfl)
  have h4 := h3.tail (Step.add (i := 1) "b" list rfl)
  have h5 := h4.tail (Step.add (i := 1) "a" int rfl)
  have h6 := h5.tail (Step.adderReturns (i := 0) rfl (by decide))
  have h7 := h6.tail (Step.adderReturns (i := 1) rfl (by decide))
  have h8 := h7.tail (Step.lock (i := 1) rfl rfl)
  have h9 := h8.tail (Step.load (i := 1) rfl)
  have h10 := h9.tail (Step.update (i := 1) rfl rfl)
  have h11 := h10.tail (Step.write (i := 1) rfl)
  have h12 := h11.tail (Step.unlock (i := 1) rfl)
  have h13 := h12.tail (Step.lock (i := 0) rfl rfl)
  have h14 := h13.tail (Step.load (i := 0) rfl)
  have h15 := h14.tail (Step.update (i := 0) rfl rfl)
  have h16 := h15.tail (Step.write (i := 0) rfl)
  have h17 := h16.tail (Step.unlock (i := 0) rfl)
  exact ⟨_, h17, ⟨[], rfl⟩, ⟨[], rfl⟩, rfl, rfl⟩
end Ex
example : ∃ s, Steps Ex.E (St.init []) s ∧ ∃ i b a t, s.th i = .returned b a ∧ look "b" a = some t :=
  let ⟨s, h, _, ⟨b, hb⟩, _⟩ := Ex.two
  ⟨s, h, 1, b, _, Ex.list, hb, rfl⟩

/-! ### C53: no unresolved alias is left -/

/-- The calls that have published add no name for an alias that is itself added as an alias. -/
def NoChain (s : St) : Prop := ∀ i b a n m k, (s.th i = .written b a ∨ s.th i = .returned b a) → look n a = some (.ref m) →
  look m a ≠ some (.ref k)

/-- No name stands for an unresolved alias. -/
def Clean (m : AMap) : Prop := ∀ n k, look n m ≠ some (.ref k)

/-- **C53.**  (What is missing: an alias that is added for another alias that is added at the same time; see `C53_violated`.) -/
theorem C53_clean_partial {E : Env} (hE : ∀ c r, E.newCall c = some r → ∀ k, r ≠ .ref k) {m0 : AMap} (h0 : Clean m0) {s : St}
    (hs : Steps E (St.init m0) s) (hc : NoChain s) : Clean s.cur := by
  refine (?_ : Clean s.cur ∧ ∀ i b, (s.th i).backing = some b → Clean b).1
  induction hs with
  | refl => exact ⟨h0, fun i b h => by cases h⟩
  | @tail s s' hs' hr ih =>
    have inv := (Inv.init E m0).steps (hs'.tail hr)
    obtain ⟨h1, h2⟩ := ih fun i b a n m k hp => hc i b a n m k (published_stays hr hp)
    have hb : ∀ i b, (s'.th i).backing = some b → Clean b := by
      intro i b hi
      rcases backing_step hr hi with h | h
      · exact h2 i b h
      · rw [h]; exact h1
    refine ⟨fun n k h => ?_, hb⟩
    rcases inv.origin n _ h with h' | ⟨i, b, a, t, hp, ht, hres⟩
    · exact h0 n k h'
    · cases t with
      | obj id refs => cases hres
      | call c => exact hE c _ hres k rfl
      | ref m =>
        rcases hres with h' | ⟨_, h'⟩
        · exact hc i b a n m k hp ht h'
        · refine hb i b ?_ m k h'
          rcases hp with hp | hp <;> rw [hp] <;> rfl

/-- Adding `X` for `Y`, `Y` for `Z` and `Z` for a type -/
theorem C53_violated : ∃ (E : Env) (s : St), Steps E (St.init []) s ∧ s.th 0 = .returned [] [("X", .ref "Y"), ("Y", .ref "Z"), ("Z", .obj 1 [])] ∧
    look "X" s.cur = some (.ref "Z") := by
  have h1 := (Relation.ReflTransGen.refl (r := Step Ex.E) (a := St.init [])).tail (Step.start (i := 0) rfl)
  have h2 := h1.tail (Step.add (i := 0) "X" (.ref "Y") rfl)
  have h3 := h2.tail (Step.add (i := 0) "Y" (.ref "Z") rfl)
  have h4 := h3.tail (Step.add (i := 0) "Z" (.obj 1 []) rfl)
  have h5 := h4.tail (Step.adderReturns (i := 0) rfl (by decide))
  have h6 := h5.tail (Step.lock (i := 0) rfl rfl)
  have h7 := h6.tail (Step.load (i := 0) rfl)
  have h8 := h7.tail (Step.update (i := 0) rfl rfl)
  have h9 := h8.tail (Step.write (i := 0) rfl)
  have h10 := h9.tail (Step.unlock (i := 0) rfl)
  exact ⟨Ex.E, _, h10, rfl, rfl⟩

/-- an alias for a type that is added with it -/
example : ∃ s, Steps Ex.E (St.init []) s ∧ NoChain s ∧ s.th 0 = .returned [] [("X", .ref "Y"), ("Y", .obj 1 [])] ∧
    look "X" s.cur = some (.obj 1 []) := by
  have h1 := (Relation.ReflTransGen.refl (r := Step Ex.E) (a := St.init [])).tail (Step.start (i := 0) rfl)
  have h2 := h1.tail (Step.add (i := 0) "X" (.ref "Y") rfl)
  have h3 := h2.tail (Step.add (i := 0) "Y" (.obj 1 []) rfl)
  have h4 := h3.tail (Step.adderReturns (i := 0) rfl (by decide))
  have h5 := h4.tail (Step.lock (i := 0) rfl rfl)
  have h6 := h5.tail (Step.load (i := 0) rfl)
  have h7 := h6.tail (Step.update (i := 0) rfl rfl)
  have h8 := h7.tail (Step.write (i := 0) rfl)
  have h9 := h8.tail (Step.unlock (i := 0) rfl)
  refine ⟨_, h9, ?_, rfl, rfl⟩
  intro i b a n m k hp
  by_cases e : i = 0
  · subst e
    simp only [upd_same, reduceCtorEq, Th.returned.injEq, false_or] at hp
    obtain ⟨_, rfl⟩ := hp
    simp [put, look]
    grind
  · simp only [upd_other _ _ e] at hp
    simp [St.init] at hp

end Alias

/-! ### C42: named types -/
namespace Named

/-- **C42.**  At most one registration of a name succeeds. -/
theorem C42_at_most_one {m0 : List (Name × Nat)} {s : St} (hs : Steps (St.init m0) s) {i j : Nat} {n : Name} {id id' t t' : Nat}
    (hi : s.th i = .registered n id t) (hj : s.th j = .registered n id' t') : i = j :=
  ((Inv.init m0).steps hs).unique i j n id id' ⟨t, Or.inr hi⟩ ⟨t', Or.inr hj⟩

/-- **C42.**  When no registration of the name is under way and some registration was made, exactly one succeeded; all others
panicked. -/
theorem C42_exactly_one {m0 : List (Name × Nat)} {s : St} (hs : Steps (St.init m0) s) {n : Name} (h0 : look n m0 = none)
    (hq : ∀ i id l t, s.th i ≠ .called (.register n id) ∧ s.th i ≠ .answered n id l t)
    {k id0 : Nat} (hk : s.th k = .refused n id0 ∨ ∃ t, s.th k = .registered n id0 t) :
    ∃ i id, s.th i = .registered n id id ∧ look n s.types = some id ∧
      ∀ j id', (∃ t, s.th j = .registered n id' t) → j = i := by
  have h := (Inv.init m0).steps hs
  have hsome : (look n s.types).isSome = true := by
    rcases hk with hk | ⟨t, hk⟩
    · exact h.lost k n id0 (Or.inr hk)
    · rw [(h.won k n id0 ⟨t, Or.inr hk⟩).1]; rfl
  obtain ⟨id, hid⟩ := Option.isSome_iff_exists.1 hsome
  rcases h.origin n id hid with h' | ⟨i, hw⟩
  · rw [h0] at h'; cases h'
  · obtain ⟨t, ht | ht⟩ := hw
    · exact absurd ht (hq i id false t).2
    · have := h.own i n id t (Or.inr ht)
      subst this
      refine ⟨i, t, ht, hid, ?_⟩
      rintro j id' ⟨t', hj⟩
      exact h.unique j i n id' t ⟨t', Or.inr hj⟩ ⟨t, Or.inr ht⟩

/-- **C42.**  The call that succeeds returns its own type, and from then on every lookup that is made returns that type and every
registration that is made panics. -/
theorem C42_winner_stays {m0 : List (Name × Nat)} {s s' : St} (hs : Steps (St.init m0) s) (hs' : Steps s s') {i : Nat} {n : Name}
    {id t : Nat} (hi : s.th i = .registered n id t) :
    t = id ∧ look n s'.types = some id ∧
    ∀ j, s.th j = .notCalled → (∀ r, s'.th j = .looked n r → r = some id) ∧ (∀ id' t', s'.th j ≠ .registered n id' t') := by
  have h := (Inv.init m0).steps hs
  have hw := (h.won i n id ⟨t, Or.inr hi⟩).1
  refine ⟨h.own i n id t (Or.inr hi), types_stay hs' hw, fun j hj => ?_⟩
  have hl : Late n id (s'.th j) := late_steps hs' hw (by rw [hj]; trivial)
  refine ⟨fun r hr => ?_, fun id' t' hr => ?_⟩
  · rw [hr] at hl; exact hl rfl
  · rw [hr] at hl; exact hl rfl

/-- two registrations, and a lookup that is made afterwards -/
example : ∃ s s', Steps (St.init []) s ∧ Steps s s' ∧ s.th 1 = .registered "n" 8 8 ∧ s'.th 0 = .refused "n" 7 ∧
    s.th 2 = .notCalled ∧ s'.th 2 = .looked "n" (some 8) := by
  have h1 := (Relation.ReflTransGen.refl (r := Step) (a := St.init [])).tail (Step.call (i := 0) (.register "n" 7) rfl)
  have h2 := h1.tail (Step.call (i := 1) (.register "n" 8) rfl)
  have h3 := h2.tail (Step.store (i := 1) rfl rfl)
  have h4 := h3.tail (Step.returns (i := 1) rfl)
  have h5 := (stay h4).tail (Step.load (i := 0) rfl rfl)
  have h6 := h5.tail (Step.panics (i := 0) rfl)
  have h7 := h6.tail (Step.call (i := 2) (.lookup "n") rfl)
  have h8 := h7.tail (Step.get (i := 2) rfl)
  have h9 := h8.tail (Step.returnsLookup (i := 2) rfl)
  exact ⟨_, _, h4, h9, rfl, rfl, rfl, rfl⟩

end Named

/-! ### C43: Get of a loader -/
namespace Loader
open Verif.Value (Val Str)

/-- **C43.**  Two calls of `Get` for one key that both return, return equal values, or both nothing.  (Values without NaN.) -/
theorem C43_agree {m0 : List (Str × Val)} {finder : Bool} {s : St} (hs : Steps finder (St.init m0) s) {i j : Nat} {k : Str}
    {r r' : Option Val} (hi : s.th i = .returned k r) (hj : s.th j = .returned k r')
    (hw : ∀ e ∈ s.entries, Value.WF e.2) (hr : ∀ v, r = some v → Value.WF v) (hr' : ∀ v, r' = some v → Value.WF v) :
    match r, r' with
    | none, none => True
    | some v, some v' => Value.eq v v' = true
    | _, _ => False := by
  have h := (Inv.init finder m0).steps hs
  have stripNone : ∀ v, strip v = none → v = .nil := by intro v; cases v <;> simp [strip]
  have stripSome : ∀ v w, strip v = some w → v = w ∧ w ≠ .nil := by
    intro v w; cases v <;> simp [strip] <;> rintro rfl <;> simp
  cases finder with
  | false =>
    have h1 := h.fixed i k r hi rfl
    have h2 := h.fixed j k r' hj rfl
    rw [h1] at h2
    subst h2
    cases r with
    | none => trivial
    | some v => exact Value.laws.refl v (hr v rfl)
  | true =>
    obtain ⟨v, hv, e, he, ha⟩ := h.returned i k r hi rfl
    obtain ⟨v', hv', e', he', ha'⟩ := h.returned j k r' hj rfl
    rw [he] at he'; cases he'
    have hmem : ∀ (m : List (Str × Val)), look k m = some e → (k, e) ∈ m := by
      intro m
      induction m with
      | nil => intro h; cases h
      | cons x m ih =>
        obtain ⟨k1, v1⟩ := x
        intro h
        unfold look at h
        split at h
        · rename_i h'; subst h'; cases h; exact List.mem_cons_self
        · exact List.mem_cons_of_mem _ (ih h)
    have hwe : Value.WF e := hw _ (hmem _ he)
    have wf : ∀ {v : Val} {r : Option Val}, strip v = r → (∀ w, r = some w → Value.WF w) → Value.WF v := by
      intro v r hv hr
      cases r with
      | none => rw [stripNone v hv]; simp [Value.WF]
      | some w => rw [(stripSome v w hv).1]; exact hr w rfl
    have wv := wf hv hr
    have wv' := wf hv' hr'
    have agr : ∀ {v : Val}, Value.WF v → Agree e v → Value.eq e v = true := by
      rintro v wv (rfl | h)
      · exact Value.laws.refl v wv
      · exact h
    have e1 : Value.eq v v' = true :=
      Value.laws.trans v e v' wv hwe wv' (Value.laws.symm e v hwe wv (agr wv ha)) (agr wv' ha')
    cases r with
    | none =>
      have := stripNone v hv; subst this
      cases r' with
      | none => trivial
      | some w' =>
        obtain ⟨rfl, hn⟩ := stripSome v' w' hv'
        cases v' <;> simp [Value.eq] at e1 hn
    | some w =>
      obtain ⟨rfl, hn⟩ := stripSome v w hv
      cases r' with
      | none =>
        have := stripNone v' hv'; subst this
        cases v <;> simp [Value.eq] at e1 hn
      | some w' =>
        obtain ⟨rfl, _⟩ := stripSome v' w' hv'
        exact e1

/-- **C43.**  Once a key has been loaded (also when nothing was found), a `Get` that is made later for that key returns the stored
value itself: it does not ask the finder again. -/
theorem C43_cached {m0 : List (Str × Val)} {s s' : St} (hs : Steps true (St.init m0) s) (hs' : Steps true s s') {i : Nat} {k : Str}
    {r : Option Val} (hi : s.th i = .returned k r) :
    ∃ e, look k s.entries = some e ∧ look k s'.entries = some e ∧ ∀ j, s.th j = .notCalled →
      s'.th j ≠ .asking k ∧ (∀ a, s'.th j ≠ .found k a) ∧ ∀ r', s'.th j = .returned k r' → r' = strip e := by
  have h := (Inv.init true m0).steps hs
  obtain ⟨v, _, e, he, _⟩ := h.returned i k r hi rfl
  refine ⟨e, he, entries_stay h hs' he, fun j hj => ?_⟩
  have hl : Late k e (s'.th j) := late_steps h hs' he (by rw [hj]; trivial)
  refine ⟨fun hc => ?_, fun a hc => ?_, fun r' hc => ?_⟩ <;> rw [hc] at hl
  · exact hl rfl
  · exact hl rfl
  · exact hl rfl

/-- **C43.**  A loader without a finder always answers with its entries. -/
theorem C43_fixed {m0 : List (Str × Val)} {s : St} (hs : Steps false (St.init m0) s) {i : Nat} {k : Str}
    {r : Option Val} (hi : s.th i = .returned k r) : s.entries = m0 ∧ r = (look k m0).bind strip := by
  have he : s.entries = m0 := by
    refine (steps_inv (P := fun s => Inv false s ∧ s.entries = m0) ?_ ⟨Inv.init false m0, rfl⟩ hs).2
    rintro s s' ⟨h, e⟩ hs
    refine ⟨h.step hs, ?_⟩
    cases hs with
    | @put i _ _ _ _ _ hj => have := (h.noAdd rfl i).1; rw [hj] at this; cases this
    | _ => exact e
  exact ⟨he, he ▸ (((Inv.init false m0).steps hs).fixed i k r hi rfl).symm⟩

namespace Ex
def k : Str := [107]
/-- Two calls miss the key at the same time, and their finders both find 1; a third call is made later. -/
example : ∃ s s', Steps true (St.init []) s ∧ Steps true s s' ∧ s.th 0 = .returned k (some (.int 1)) ∧ s.th 2 = .notCalled ∧
    s'.th 1 = .returned k (some (.int 1)) ∧ s'.th 2 = .returned k (some (.int 1)) := by
  have h1 := (Relation.ReflTransGen.refl (r := Step true) (a := St.init [])).tail (Step.call (i := 0) k rfl)
  have h2 := h1.tail (Step.call (i := 1) k rfl)
  have h3 := h2.tail (Step.rlock (i := 0) rfl rfl)
  have h4 := h3.tail (Step.rlock (i := 1) rfl rfl)
  have h5 := h4.tail (Step.read (i := 0) rfl)
  have h6 := h5.tail (Step.read (i := 1) rfl)
  have h7 := h6.tail (Step.miss (i := 0) rfl rfl)
  have h8 := h7.tail (Step.miss (i := 1) rfl rfl)
  have h9 := h8.tail (Step.find (i := 0) (.one (.int 1)) rfl)
  have h10 := h9.tail (Step.find (i := 1) (.one (.int 1)) rfl)
  have h11 := h10.tail (Step.lock (i := 0) rfl rfl rfl)
  have h12 := h11.tail (Step.single (i := 0) rfl)
  have h13 := h12.tail (Step.check (i := 0) rfl)
  have h14 := h13.tail (Step.put (i := 0) rfl)
  have h15 := h14.tail (Step.unlock (i := 0) rfl)
  have h16 := (stay h15).tail (Step.lock (i := 1) rfl rfl rfl)
  have h17 := h16.tail (Step.single (i := 1) rfl)
  have h18 := h17.tail (Step.check (i := 1) rfl)
  have h19 := h18.tail (Step.same (i := 1) rfl (by decide))
  have h20 := h19.tail (Step.unlock (i := 1) rfl)
  have h21 := h20.tail (Step.call (i := 2) k rfl)
  have h22 := h21.tail (Step.rlock (i := 2) rfl rfl)
  have h23 := h22.tail (Step.read (i := 2) rfl)
  have h24 := h23.tail (Step.hit (i := 2) rfl)
  exact ⟨_, _, h15, h24, rfl, rfl, rfl, rfl⟩
end Ex

end Loader

/-! ### C44: namespaces -/
namespace Namespace

/-- **C44.**  Calls for one name that return a namespace all return the same one. -/
theorem C44_same {me : Nat} {creator : Bool} {s : St} (hs : Steps me creator St.init s) {i j : Nat} {n : Name} {l l' : Nat}
    (hi : s.th i = .returned n (some l)) (hj : s.th j = .returned n (some l')) : l = l' := by
  have h := (Inv.init me).steps hs
  have h1 := h.knows i
  have h2 := h.knows j
  rw [hi] at h1
  rw [hj] at h2
  simp only [Th.knows] at h1 h2
  by_cases hn : n = ""
  · rw [if_pos hn] at h1 h2; rw [h1, h2]
  · rw [if_neg hn] at h1 h2; rw [h1] at h2; exact Option.some.inj h2

/-- **C44.**  Once a namespace has been obtained, every call that is made later for that name returns it, without asking the
creator. -/
theorem C44_for_ever {me : Nat} {creator : Bool} {s s' : St} (hs : Steps me creator St.init s) (hs' : Steps me creator s s')
    {i j : Nat} {n : Name} {l : Nat} (hi : s.th i = .returned n (some l)) (hj : s.th j = .notCalled) :
    s'.th j ≠ .creating n ∧ ∀ r, s'.th j = .returned n r → r = some l := by
  have h := (Inv.init me).steps hs
  have h1 := h.knows i
  rw [hi] at h1
  simp only [Th.knows] at h1
  by_cases hn : n = ""
  · rw [if_pos hn] at h1
    subst hn h1
    have h2 := ((Inv.init l).steps (hs.trans hs')).knows j
    refine ⟨fun hc => ?_, fun r hc => ?_⟩
    · rw [hc] at h2; exact h2 rfl
    · rw [hc] at h2
      cases r with
      | none => exact absurd rfl h2
      | some l' => simp only [Th.knows, if_true] at h2; rw [h2]
  · rw [if_neg hn] at h1
    have hl : Late n l (s'.th j) := late_steps h hs' hn h1 (by rw [hj]; trivial)
    refine ⟨fun hc => ?_, fun r hc => ?_⟩
    · rw [hc] at hl; exact hl rfl
    · rw [hc] at hl; exact hl rfl

/-- Two calls create namespaces 7 and 8 at the same time; the second one gives up its own, and a later call finds 7. -/
example : ∃ s s', Steps 0 true St.init s ∧ Steps 0 true s s' ∧ s.th 0 = .returned "n" (some 7) ∧ s.th 2 = .notCalled ∧
    s'.th 1 = .returned "n" (some 7) ∧ s'.th 2 = .returned "n" (some 7) := by
  have h1 := (Relation.ReflTransGen.refl (r := Step 0 true) (a := St.init)).tail (Step.call (i := 0) "n" rfl (by decide))
  have h2 := h1.tail (Step.call (i := 1) "n" rfl (by decide))
  have h3 := h2.tail (Step.rlock (i := 0) rfl rfl)
  have h4 := h3.tail (Step.rlock (i := 1) rfl rfl)
  have h5 := h4.tail (Step.read (i := 0) rfl)
  have h6 := h5.tail (Step.read (i := 1) rfl)
  have h7 := h6.tail (Step.miss (i := 0) rfl rfl)
  have h8 := h7.tail (Step.miss (i := 1) rfl rfl)
  have h9 := h8.tail (Step.create (i := 0) 7 rfl)
  have h10 := h9.tail (Step.create (i := 1) 8 rfl)
  have h11 := h10.tail (Step.lock (i := 0) rfl rfl rfl)
  have h12 := h11.tail (Step.check (i := 0) rfl)
  have h13 := h12.tail (Step.put (i := 0) rfl)
  have h14 := h13.tail (Step.unlock (i := 0) rfl)
  have h15 := (stay h14).tail (Step.lock (i := 1) rfl rfl rfl)
  have h16 := h15.tail (Step.check (i := 1) rfl)
  have h17 := h16.tail (Step.unlockOld (i := 1) rfl)
  have h18 := h17.tail (Step.equal (i := 1) rfl)
  have h19 := h18.tail (Step.call (i := 2) "n" rfl (by decide))
  have h20 := h19.tail (Step.rlock (i := 2) rfl rfl)
  have h21 := h20.tail (Step.read (i := 2) rfl)
  have h22 := h21.tail (Step.hit (i := 2) rfl)
  exact ⟨_, _, h14, h22, rfl, rfl, rfl, rfl⟩

end Namespace

/-! ### C45: loaders with a parent -/
namespace Tree
open Verif.Value (Val Str)

/-- **C45.**  A name is loaded segment by segment: `Load("a")` is `Get("a")`, and `Load("a/rest")` is `Load("rest")` of the namespace
`a`. -/
theorem C45_segments (E : Env) (l : L) {a : Str} (ha : 47 ∉ a) (rest : Str) :
    load E l a = get E l a ∧ load E l (a ++ 47 :: rest) = (namespace' E l a).bind fun l' => load E l' rest := by
  unfold load
  rw [split_plain ha, split_slash rest ha]
  refine ⟨rfl, ?_⟩
  cases hs : split rest with
  | nil => exact absurd hs (split_ne_nil rest)
  | cons p ps =>
    rw [walk]
    · cases namespace' E l a <;> rfl
    · simp

/-- **C45.**  For every name, the child loads what the parent loads, and if that is nothing then what its own loader loads. -/
theorem C45_child (E : Env) (parent : L) (i : Nat) (name : Str) :
    (∀ v, load E parent name = some v → load E (newChild parent i) name = some v) ∧
    (load E parent name = none → load E (newChild parent i) name = load E (.base i) name) := by
  unfold newChild load
  rw [walk_child]
  constructor
  · intro v h; rw [h]; rfl
  · intro h; rw [h]; rfl

namespace Ex
/-- loader 0 has the namespace `a` (1) with `x`; loader 2 has the namespace `a` (3) with `x` and `y` -/
def E : Env where
  get i k := match i, k with
    | 1, [120] => some (.int 1)
    | 3, [120] => some (.int 2)
    | 3, [121] => some (.int 3)
    | _, _ => none
  ns i n := match i, n with
    | 0, [97] => some 1
    | 2, [97] => some 3
    | _, _ => none
  name _ := []
  parentNs _ := none
end Ex
example : load Ex.E (newChild (.base 0) 2) [97, 47, 120] = some (.int 1) ∧ load Ex.E (newChild (.base 0) 2) [97, 47, 121] = some (.int 3) ∧
    load Ex.E (.base 2) [97, 47, 120] = some (.int 2) := ⟨rfl, rfl, rfl⟩

end Tree

end Verif.Conc
