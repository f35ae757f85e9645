import Verif.Stream.AbleRich
import Verif.Stream.JsonProps
/-!
# C95: a consumer is told only what it can do
-/
set_option autoImplicit false
set_option linter.unusedVariables false
set_option linter.unusedSimpArgs false
namespace Verif.Stream
open Verif.Value (Str)

mutual
/-- Nothing but nil, booleans, integers, floats, strings, arrays, maps with strings as keys, and references -/
def PlainData : Ev → Prop
  | .add _ => True
  | .addBin _ => False
  | .addTime _ => False
  | .ref _ => True
  | .arr es => PlainDataAll es
  | .map es => StrKeys es ∧ PlainDataAll es
def PlainDataAll : List Ev → Prop
  | [] => True
  | e :: es => PlainData e ∧ PlainDataAll es
end

/-! ## Lemmas -/

mutual
theorem plain_of_able {c : Consumer} (hb : c.binary = false) (ht : c.time = false) (hk : c.complexKeys = false) : ∀ (e : Ev), Able c e → PlainData e
  | .add _, _ => trivial
  | .addBin _, h => by simp [Able, hb] at h
  | .addTime _, h => by simp [Able, ht] at h
  | .ref _, _ => trivial
  | .arr es, h => plain_of_all hb ht hk es h
  | .map es, h => ⟨h.1.resolve_left (by simp [hk]), plain_of_all hb ht hk es h.2⟩
theorem plain_of_all {c : Consumer} (hb : c.binary = false) (ht : c.time = false) (hk : c.complexKeys = false) : ∀ (es : List Ev), AbleAll c es → PlainDataAll es
  | [], _ => trivial
  | e :: es, h => ⟨plain_of_able hb ht hk e h.1, plain_of_all hb ht hk es h.2⟩
end

section
variable {o : Options} {c : Consumer} {h : Heap}

theorem map_panic_iff {α β : Type} {f : α → β} {x : Out α} : x.map f = .panic ↔ x = .panic := by
  cases x <;> simp [Out.map]

theorem process_panic {lvl : Nat} {s : St} {x : Key} {f : St → Out (St × Ev)} (hp : process lvl s x f = .panic) : ∃ s, f s = .panic := by
  unfold process at hp
  split at hp
  · exact ⟨_, hp⟩
  · split at hp
    · cases hp
    · exact ⟨_, hp⟩

theorem string_panic {lvl : Nat} {s : St} {x : Str} : emitString c lvl s x ≠ .panic := by
  intro he
  unfold emitString at he
  split at he
  · obtain ⟨s, hs⟩ := process_panic he
    cases hs
  · cases he

theorem all_panic {f : St → Ref → Out (St × Ev)} : ∀ (rs : List Ref) (s : St), emitAll f s rs = .panic → ∃ r ∈ rs, ∃ s, f s r = .panic
  | [], s, hh => by cases hh
  | r :: rs, s, hh => by
    unfold emitAll at hh
    split at hh
    · exact ⟨r, List.mem_cons_self .., s, by assumption⟩
    · cases hh
    · split at hh
      · rename_i s1 e h1 h2
        obtain ⟨r', hr', hs⟩ := all_panic rs _ h2
        exact ⟨r', List.mem_cons_of_mem _ hr', hs⟩
      · cases hh
      · cases hh

theorem entries_panic {f g : St → Ref → Out (St × Ev)} : ∀ (rs : List (Ref × Ref)) (s : St), emitEntries f g s rs = .panic →
    ∃ r ∈ slots (.map rs), ∃ s, f s r = .panic ∨ g s r = .panic
  | [], s, hh => by cases hh
  | (k, v) :: rs, s, hh => by
    unfold emitEntries at hh
    simp only [slots, List.flatMap_cons, List.cons_append, List.nil_append, List.mem_cons]
    split at hh
    · exact ⟨k, .inl rfl, s, .inl (by assumption)⟩
    · cases hh
    · rename_i s1 e h1
      split at hh
      · exact ⟨v, .inr (.inl rfl), s1, .inr (by assumption)⟩
      · cases hh
      · split at hh
        · rename_i s2 e' h2 h3
          obtain ⟨r', hr', hs⟩ := entries_panic rs _ h3
          exact ⟨r', .inr (.inr hr'), hs⟩
        · cases hh
        · cases hh

/-- A missing object, or one that is neither data nor a type -/
def Refused (c : Consumer) (h : Heap) (r : Ref) : Prop := ∃ q, Reach h r q ∧ (h q = none ∨ ∃ x, h q = some x ∧ isRich c x = true ∧ ∀ t, x ≠ .typ t)

theorem reach_slot {p : Nat} {x : Obj} {r : Ref} (hx : h p = some x) (hr : r ∈ slots x) {q : Nat} (hq : Reach h r q) : Reach h (.obj p) q := by
  induction hq with
  | root p' e => subst e; exact .step _ _ _ (.root _ rfl) hx hr
  | step a b z ha hz hb ih => exact .step _ _ _ ih hz hb

theorem refused_slot {p : Nat} {x : Obj} {r : Ref} (hx : h p = some x) (hr : r ∈ slots x) : Refused c h r → Refused c h (.obj p) := by
  rintro ⟨q, hq, hh⟩
  exact ⟨q, reach_slot hx hr hq, hh⟩

theorem emit_panic : ∀ (n lvl : Nat) (s : St) (r : Ref), emit o c h n lvl s r = .panic →
    (∃ q, Reach h r q ∧ h q = none) ∨ (o.rich = false ∧ Refused c h r) := by
  intro n
  induction n with
  | zero =>
    intro lvl s r he
    match r with
    | .atom (.str x) => exact absurd he string_panic
    | .atom .nil => cases he
    | .atom (.bool _) => cases he
    | .atom (.int _) => cases he
    | .atom (.float _) => cases he
    | .obj p => cases he
  | succ n ih =>
    intro lvl s r he
    match r with
    | .atom (.str x) => exact absurd he string_panic
    | .atom .nil => cases he
    | .atom (.bool _) => cases he
    | .atom (.int _) => cases he
    | .atom (.float _) => cases he
    | .obj p =>
      have up : ∀ x r, h p = some x → r ∈ slots x → ((∃ q, Reach h r q ∧ h q = none) ∨ (o.rich = false ∧ Refused c h r)) →
          (∃ q, Reach h (.obj p) q ∧ h q = none) ∨ (o.rich = false ∧ Refused c h (.obj p)) := by
        rintro x r hx hr (⟨q, hq, hn⟩ | ⟨h1, h2⟩)
        · exact .inl ⟨q, reach_slot hx hr hq, hn⟩
        · exact .inr ⟨h1, refused_slot hx hr h2⟩
      have rich : ∀ x, h p = some x → isRich c x = true → (∀ t, x ≠ .typ t) → (!o.rich) = true →
          (∃ q, Reach h (.obj p) q ∧ h q = none) ∨ (o.rich = false ∧ Refused c h (.obj p)) :=
        fun x hx h1 h2 h3 => .inr ⟨by simpa using h3, p, .root _ rfl, .inr ⟨x, hx, h1, h2⟩⟩
      rw [emit.eq_def] at he
      dsimp only at he
      split at he
      · exact .inl ⟨p, .root _ rfl, by assumption⟩
      · rename_i es hes
        obtain ⟨s, he⟩ := process_panic he
        obtain ⟨r, hr, s, he⟩ := all_panic _ _ (map_panic_iff.mp he)
        exact up _ r hes hr (ih _ _ _ he)
      · rename_i es hes
        split at he
        · split at he
          · cases he
          · obtain ⟨s, he⟩ := process_panic he
            obtain ⟨r, hr, s, he | he⟩ := entries_panic _ _ (map_panic_iff.mp he)
            · exact up _ r hes hr (ih _ _ _ he)
            · exact up _ r hes hr (ih _ _ _ he)
        · rename_i hck
          split at he
          · rename_i hrich
            refine rich _ hes ?_ (by simp) hrich
            simpa [isRich, plainMap] using hck
          · obtain ⟨s, he⟩ := process_panic he
            obtain ⟨r, hr, s, he | he⟩ := entries_panic _ _ (map_panic_iff.mp he)
            · exact up _ r hes hr (ih _ _ _ he)
            · exact up _ r hes hr (ih _ _ _ he)
      · rename_i v hes
        obtain ⟨s, he⟩ := process_panic he
        split at he
        · rename_i hrich
          exact rich _ hes rfl (by simp) hrich
        · exact up _ v hes (by simp [slots]) (ih _ _ _ (map_panic_iff.mp he))
      · rename_i v hes
        obtain ⟨s, he⟩ := process_panic he
        split at he
        · cases he
        · rename_i hb
          split at he
          · rename_i hrich
            exact rich _ hes (by simpa [isRich] using hb) (by simp) hrich
          · exact absurd (map_panic_iff.mp he) string_panic
      · rename_i v hes
        obtain ⟨s, he⟩ := process_panic he
        split at he
        · cases he
        · rename_i hb
          split at he
          · rename_i hrich
            exact rich _ hes (by simpa [isRich] using hb) (by simp) hrich
          · exact absurd (map_panic_iff.mp he) string_panic
      · rename_i v hes
        obtain ⟨s, he⟩ := process_panic he
        split at he
        · cases he
        · split at he
          · cases he
          · obtain ⟨r, hr, s, he⟩ := all_panic _ _ (map_panic_iff.mp he)
            simp only [List.mem_cons, List.not_mem_nil, or_false] at hr
            rcases hr with rfl | rfl
            · exact absurd he string_panic
            · exact absurd he string_panic
end

/-! ## C95 -/

/-- A consumer that cannot do binaries, times or maps with other keys than strings is not told of any. -/
theorem C95_told (o : Options) (c : Consumer) (h : Heap) (fuel : Nat) (r : Ref) (e : Ev) (he : stream o c h fuel r = .ok e) : Able c e := by
  obtain ⟨x, hx, rfl⟩ := map_ok_iff.mp he
  refine emit_able fuel (level o c) _ r x.1 x.2 ?_ hx
  cases hc : c.complexKeys with
  | true => exact .inl rfl
  | false =>
    right
    unfold level
    rw [hc]
    split
    · exact Nat.le_refl _
    · rename_i hn
      simp only [and_true] at hn
      omega

/-- The collector of data and the JSON encoder are told of plain data only. -/
theorem C95_data (o : Options) (h : Heap) (fuel : Nat) (r : Ref) (e : Ev)
    (he : stream o dataConsumer h fuel r = .ok e ∨ stream o jsonConsumer h fuel r = .ok e) : PlainData e := by
  rcases he with he | he
  · exact plain_of_able rfl rfl rfl e (C95_told o _ h fuel r e he)
  · exact plain_of_able rfl rfl rfl e (C95_told o _ h fuel r e he)

/-- The collector of values is told of binaries and times as they are, and of maps whatever their keys are. -/
theorem C95_basic (o : Options) (h : Heap) (fuel : Nat) (p : Nat) :
    (∀ bs, h p = some (.bin bs) → stream o basicConsumer h (fuel + 1) (.obj p) = .ok (.addBin bs))
    ∧ (∀ t, h p = some (.time t) → stream o basicConsumer h (fuel + 1) (.obj p) = .ok (.addTime t))
    ∧ (∀ es e, h p = some (.map es) → stream o basicConsumer h fuel (.obj p) = .ok e → (∃ n, e = .ref n) ∨ ∃ es', e = .map es' ∧ es'.length = 2 * es.length) := by
  refine ⟨fun bs hb => ?_, fun t ht => ?_, fun es e hm he => ?_⟩
  · have : emit o basicConsumer h (fuel + 1) (level o basicConsumer) { values := [], refIndex := 0 } (.obj p)
        = process (level o basicConsumer) { values := [], refIndex := 0 } (.obj p) fun s => .ok (s.inc 1, .addBin bs) := by
      rw [emit.eq_def]
      simp only [hb, basicConsumer, if_true]
    unfold stream
    rw [this]
    unfold process
    split <;> rfl
  · have : emit o basicConsumer h (fuel + 1) (level o basicConsumer) { values := [], refIndex := 0 } (.obj p)
        = process (level o basicConsumer) { values := [], refIndex := 0 } (.obj p) fun s => .ok (s.inc 1, .addTime t) := by
      rw [emit.eq_def]
      simp only [ht, basicConsumer, if_true]
    unfold stream
    rw [this]
    unfold process
    split <;> rfl
  · obtain ⟨x, hx, rfl⟩ := map_ok_iff.mp he
    cases fuel with
    | zero => cases hx
    | succ n =>
      rw [emit.eq_def] at hx
      simp only [hm, basicConsumer, Bool.true_or, if_true] at hx
      split at hx
      · cases hx
        exact .inl ⟨_, rfl⟩
      · rcases process_ok hx with ⟨-, -, -, hr⟩ | ⟨-, h2⟩ | ⟨-, h2⟩
        · exact .inl hr
        all_goals
          obtain ⟨y, hy, hz⟩ := map_ok_iff.mp h2
          refine .inr ⟨y.2, (congrArg (·.2) hz).symm, ?_⟩
          exact entries_length _ _ _ _ hy
where
  entries_length {f g : St → Ref → Out (St × Ev)} : ∀ (rs : List (Ref × Ref)) (s s' : St) (es : List Ev),
      emitEntries f g s rs = .ok (s', es) → es.length = 2 * rs.length
    | [], s, s', es, hh => by cases hh; rfl
    | (k, v) :: rs, s, s', es, hh => by
      unfold emitEntries at hh
      split at hh
      · cases hh
      · cases hh
      · split at hh
        · cases hh
        · cases hh
        · split at hh
          · cases hh
          · cases hh
          · rename_i s3 es' h3
            cases hh
            have := entries_length rs _ _ _ h3
            simp only [List.length_cons, this]
            omega

/-- Without rich data what is neither data nor a type is refused wherever it is. -/
theorem C95_refused_partial (o : Options) (c : Consumer) (h : Heap) (fuel : Nat) (r : Ref) (e : Ev) (hr : o.rich = false)
    (he : stream o c h fuel r = .ok e) :
    ∀ q, Reach h r q → ∃ x, h q = some x ∧ (isRich c x = false ∨ ∃ t, x = .typ t) :=
  stream_good hr he

/-- Nothing else is refused, and with rich data nothing is. -/
theorem C95_accepted (o : Options) (c : Consumer) (h : Heap) (fuel : Nat) (r : Ref) (hp : stream o c h fuel r = .panic)
    (hh : ∀ q, Reach h r q → h q ≠ none) :
    o.rich = false ∧ ∃ q x, Reach h r q ∧ h q = some x ∧ isRich c x = true ∧ ∀ t, x ≠ .typ t := by
  rcases emit_panic _ _ _ _ (map_panic_iff.mp hp) with ⟨q, hq, hn⟩ | ⟨h1, q, hq, hn | ⟨x, hx, h2, h3⟩⟩
  · exact absurd hn (hh q hq)
  · exact absurd hn (hh q hq)
  · exact ⟨h1, q, x, hq, hx, h2, h3⟩

/-- Without de-duplication there are no references, if no map looks like one. -/
theorem C95_nodedup (o : Options) (c : Consumer) (h : Heap) (fuel : Nat) (r : Ref) (e : Ev) (hd : o.dedup = 0)
    (hv : ∀ p es, h p = some (.map es) → plainMap c es = true → verbatim o.dialect es = none) (he : stream o c h fuel r = .ok e) : NoRefs e := by
  obtain ⟨x, hx, rfl⟩ := map_ok_iff.mp he
  have : level o c = 0 := by simp [level, hd]
  rw [this] at hx
  exact emit_norefs hv fuel _ r x.1 x.2 hx

/-- The claim that without rich data only data goes out: a type goes out as a map. -/
theorem C95_violated_types :
    stream { exOptions 1 with rich := false } dataConsumer (heapOf [.typ (txt "int")]) 1 (.obj 0)
      = .ok (.map [.add (.str (txt "__type")), .add (.str (txt "int"))]) := rfl

/-! ## Examples -/

/-- An array with a binary, a map with a complex key and the array itself -/
def ableHeap : Heap := heapOf [.arr [.obj 1, .obj 2, .obj 1], .bin [1, 2, 3], .map [(.atom (.int 1), .obj 0)]]

example : ∃ e, stream (exOptions 1) dataConsumer ableHeap 4 (.obj 0) = .ok e ∧ PlainData e :=
  ⟨_, rfl, C95_data (exOptions 1) ableHeap 4 (.obj 0) _ (.inl rfl)⟩
/-- Plain data -/
def dataHeap : Heap := heapOf [.map [(.atom (.str (txt "a")), .obj 1)], .arr []]
example : ∃ e, stream { exOptions 1 with rich := false } dataConsumer dataHeap 4 (.obj 0) = .ok e
    ∧ ∀ q, Reach dataHeap (.obj 0) q → ∃ x, dataHeap q = some x ∧ (isRich dataConsumer x = false ∨ ∃ t, x = .typ t) :=
  ⟨.map [.add (.str (txt "a")), .arr []], rfl, C95_refused_partial { exOptions 1 with rich := false } dataConsumer _ 4 (.obj 0) _ rfl rfl⟩
example : stream { exOptions 1 with rich := false } dataConsumer ableHeap 4 (.obj 0) = .panic := rfl
example : stream { exOptions 1 with rich := false } basicConsumer ableHeap 4 (.obj 0)
    = .ok (.arr [.addBin [1, 2, 3], .map [.add (.int 1), .ref 0], .ref 1]) := rfl
example : ∃ e, stream (exOptions 0) dataConsumer exHeap 4 (.obj 0) = .ok e ∧ NoRefs e :=
  ⟨_, rfl, C95_nodedup (exOptions 0) dataConsumer exHeap 4 (.obj 0) _ rfl (exStreamable 0 _).noRef rfl⟩

end Verif.Stream
