import Verif.Stream.Spec
import Verif.Binary.Lemmas
/-!
# Lemmas on values, collectors and the streamer's table
-/
set_option autoImplicit false
set_option linter.unusedVariables false
set_option linter.unusedSimpArgs false
namespace Verif.Stream
open Verif.Value (Str)

/-! ## The value of a reference -/

def Sub (h h' : Heap) : Prop := ∀ p o, h p = some o → h' p = some o

theorem denAll_mono {f g : Ref → Option T} (hfg : ∀ r t, f r = some t → g r = some t) :
    ∀ {rs : List Ref} {ts : List T}, denAll f rs = some ts → denAll g rs = some ts := by
  intro rs
  induction rs with
  | nil => intro ts h; simpa [denAll] using h
  | cons r rs ih =>
    intro ts h
    simp only [denAll] at h ⊢
    cases hr : f r with
    | none => simp [hr] at h
    | some t =>
      cases hs : denAll f rs with
      | none => simp [hr, hs] at h
      | some ts' => simp only [hr, hs] at h; simp only [hfg _ _ hr, ih hs]; exact h

theorem denEntries_mono {f g : Ref → Option T} (hfg : ∀ r t, f r = some t → g r = some t) :
    ∀ {rs : List (Ref × Ref)} {ts : List (T × T)}, denEntries f rs = some ts → denEntries g rs = some ts := by
  intro rs
  induction rs with
  | nil => intro ts h; simpa [denEntries] using h
  | cons r rs ih =>
    intro ts h
    obtain ⟨k, v⟩ := r
    simp only [denEntries] at h ⊢
    cases hk : f k with
    | none => simp [hk] at h
    | some t =>
      cases hv : f v with
      | none => simp [hk, hv] at h
      | some t' =>
        cases hs : denEntries f rs with
        | none => simp [hk, hv, hs] at h
        | some ts' => simp only [hk, hv, hs] at h; simp only [hfg _ _ hk, hfg _ _ hv, ih hs]; exact h

theorem den_mono_both {h h' : Heap} (hs : Sub h h') : ∀ (n m : Nat), n ≤ m → ∀ (r : Ref) (t : T), den h n r = some t → den h' m r = some t
  | 0, m, hm, .atom a, t, hd => by cases m <;> simpa [den] using hd
  | n + 1, m, hm, .atom a, t, hd => by cases m <;> simpa [den] using hd
  | 0, m, hm, .obj p, t, hd => by simp [den] at hd
  | n + 1, 0, hm, .obj p, t, hd => by omega
  | n + 1, m + 1, hm, .obj p, t, hd => by
    have ih := den_mono_both hs n m (by omega)
    simp only [den] at hd ⊢
    cases hp : h p with
    | none => simp [hp] at hd
    | some o =>
      rw [hs _ _ hp]
      rw [hp] at hd
      cases o with
      | arr es =>
        simp only [Option.map_eq_some_iff] at hd ⊢
        obtain ⟨ts, hts, e⟩ := hd
        exact ⟨ts, denAll_mono ih hts, e⟩
      | map es =>
        simp only [Option.map_eq_some_iff] at hd ⊢
        obtain ⟨ts, hts, e⟩ := hd
        exact ⟨ts, denEntries_mono ih hts, e⟩
      | sens v =>
        simp only [Option.map_eq_some_iff] at hd ⊢
        obtain ⟨ts, hts, e⟩ := hd
        exact ⟨ts, ih _ _ hts, e⟩
      | bin bs => exact hd
      | time x => exact hd
      | typ x => exact hd

theorem Sub.refl (h : Heap) : Sub h h := fun _ _ x => x

theorem den_mono {h : Heap} {n m : Nat} (hm : n ≤ m) {r : Ref} {t : T} (hd : den h n r = some t) : den h m r = some t :=
  den_mono_both (Sub.refl h) n m hm r t hd

theorem den_det {h : Heap} {n m : Nat} {r : Ref} {t t' : T} (h1 : den h n r = some t) (h2 : den h m r = some t') : t = t' := by
  have a := den_mono (Nat.le_max_left n m) h1
  have b := den_mono (Nat.le_max_right n m) h2
  rw [a] at b
  exact Option.some.inj b

theorem Is.mono {h h' : Heap} (hs : Sub h h') {r : Ref} {t : T} : Is h r t → Is h' r t :=
  fun ⟨n, hn⟩ => ⟨n, den_mono_both hs n n (Nat.le_refl n) r t hn⟩

theorem Is.atom (h : Heap) (a : Atom) : Is h (.atom a) (.ofAtom a) := ⟨0, by cases a <;> rfl⟩

def IsAll (h : Heap) (rs : List Ref) (ts : List T) : Prop := ∃ n, denAll (den h n) rs = some ts

theorem IsAll.nil (h : Heap) : IsAll h [] [] := ⟨0, rfl⟩

theorem IsAll.cons {h : Heap} {r : Ref} {rs : List Ref} {t : T} {ts : List T} : Is h r t → IsAll h rs ts → IsAll h (r :: rs) (t :: ts) :=
  fun ⟨n, hn⟩ ⟨m, hm⟩ =>
    ⟨max n m, by
      have a := den_mono (Nat.le_max_left n m) hn
      have b := denAll_mono (fun r t => den_mono (h := h) (Nat.le_max_right n m) (r := r) (t := t)) hm
      simp only [denAll, a, b]⟩

theorem IsAll.mono {h h' : Heap} (hs : Sub h h') {rs : List Ref} {ts : List T} : IsAll h rs ts → IsAll h' rs ts :=
  fun ⟨n, hn⟩ => ⟨n, denAll_mono (fun r t => den_mono_both hs n n (Nat.le_refl n) r t) hn⟩

theorem Is.arr {h : Heap} {p : Nat} {rs : List Ref} {ts : List T} (hp : h p = some (.arr rs)) : IsAll h rs ts → Is h (.obj p) (.arr ts) :=
  fun ⟨n, hn⟩ => ⟨n + 1, by simp only [den, hp, hn]; rfl⟩

theorem Is.sens {h : Heap} {p : Nat} {r : Ref} {t : T} (hp : h p = some (.sens r)) : Is h r t → Is h (.obj p) (.sens t) :=
  fun ⟨n, hn⟩ => ⟨n + 1, by simp only [den, hp, hn]; rfl⟩

theorem denAll_entries {f : Ref → Option T} : ∀ {es : List (Ref × Ref)} {ts : List (T × T)},
    denEntries f es = some ts ↔ denAll f (flatten es) = some (flatten ts)
  | [], ts => by
    cases ts with
    | nil => simp [denEntries, denAll, flatten]
    | cons t ts => obtain ⟨a, b⟩ := t; simp [denEntries, denAll, flatten]
  | (k, v) :: es, ts => by
    have e : flatten ((k, v) :: es) = k :: v :: flatten es := rfl
    rw [e]
    simp only [denEntries, denAll]
    cases hk : f k with
    | none => cases ts <;> simp [flatten]
    | some t =>
      cases hv : f v with
      | none => cases ts <;> simp [flatten]
      | some t' =>
        cases hs : denAll f (flatten es) with
        | none =>
          cases hs' : denEntries f es with
          | none => simp
          | some x => rw [denAll_entries.mp hs'] at hs; cases hs
        | some xs =>
          simp only
          cases hs' : denEntries f es with
          | none =>
            simp only [reduceCtorEq, false_iff]
            intro h
            simp only [Option.some.injEq] at h
            cases ts with
            | nil => simp [flatten] at h
            | cons a ts =>
              obtain ⟨x, y⟩ := a
              have e : flatten ((x, y) :: ts) = x :: y :: flatten ts := rfl
              rw [e] at h
              simp only [List.cons.injEq] at h
              rw [h.2.2] at hs
              rw [denAll_entries.mpr hs] at hs'
              cases hs'
          | some x =>
            have := denAll_entries.mp hs'
            rw [hs] at this
            have hx := Option.some.inj this
            subst hx
            simp only [Option.some.injEq]
            constructor
            · intro h; subst h; rfl
            · intro h
              cases ts with
              | nil => simp [flatten] at h
              | cons a ts =>
                obtain ⟨a, b⟩ := a
                have e : flatten ((a, b) :: ts) = a :: b :: flatten ts := rfl
                rw [e] at h
                simp only [List.cons.injEq] at h
                obtain ⟨rfl, rfl, h⟩ := h
                have := denAll_entries.mpr (hs.trans (congrArg some h))
                rw [hs'] at this
                rw [Option.some.inj this]

theorem flatten_toPairs : ∀ {h : Heap} {rs : List Ref} {es : List (T × T)}, IsAll h rs (flatten es) → flatten (toPairs rs) = rs
  | h, [], es, _ => rfl
  | h, [r], es, ⟨n, hn⟩ => by
    simp only [denAll] at hn
    cases hr : den h n r with
    | none => simp [hr] at hn
    | some t =>
      simp only [hr, Option.some.injEq] at hn
      cases es with
      | nil => simp [flatten] at hn
      | cons e es => simp [flatten] at hn
  | h, r :: r' :: rs, es, ⟨n, hn⟩ => by
    simp only [denAll] at hn
    cases hr : den h n r with
    | none => simp [hr] at hn
    | some t =>
      cases hr' : den h n r' with
      | none => simp [hr, hr'] at hn
      | some t' =>
        cases hs : denAll (den h n) rs with
        | none => simp [hr, hr', hs] at hn
        | some ts =>
          simp only [hr, hr', hs, Option.some.injEq] at hn
          cases es with
          | nil => simp [flatten] at hn
          | cons e es =>
            have e1 : flatten (e :: es) = e.1 :: e.2 :: flatten es := rfl
            rw [e1] at hn
            simp only [List.cons.injEq] at hn
            have := flatten_toPairs (h := h) (rs := rs) (es := es) ⟨n, by rw [hs, hn.2.2]⟩
            show r :: r' :: flatten (toPairs rs) = _
            rw [this]

theorem Is.map {h : Heap} {p : Nat} {rs : List Ref} {es : List (T × T)} (hp : h p = some (.map (toPairs rs))) (ha : IsAll h rs (flatten es)) :
    Is h (.obj p) (.map es) := by
  have hf := flatten_toPairs ha
  obtain ⟨n, hn⟩ := ha
  refine ⟨n + 1, ?_⟩
  simp only [den, hp]
  have : denEntries (den h n) (toPairs rs) = some es := denAll_entries.mpr (by rw [hf]; exact hn)
  rw [this]
  rfl

theorem den_str {h : Heap} {n : Nat} {r : Ref} {s : Str} : den h n r = some (.str s) ↔ r = .atom (.str s) := by
  cases r with
  | atom a => cases n <;> cases a <;> simp [den, T.ofAtom]
  | obj p =>
    cases n with
    | zero => simp [den]
    | succ n =>
      simp only [den]
      cases h p with
      | none => simp
      | some o => cases o <;> simp

theorem Is.str {h : Heap} {r : Ref} {s : Str} (hi : Is h r (.str s)) : r = .atom (.str s) := by
  obtain ⟨n, hn⟩ := hi
  exact den_str.mp hn

/-! ## The collector -/

structure Le (c c' : Coll) : Prop where
  cells : c.cells <+: c'.cells
  values : c.values <+: c'.values

theorem Le.refl (c : Coll) : Le c c := ⟨List.prefix_rfl, List.prefix_rfl⟩
theorem Le.trans {a b c : Coll} (h1 : Le a b) (h2 : Le b c) : Le a c := ⟨h1.cells.trans h2.cells, h1.values.trans h2.values⟩

theorem prefix_get {α : Type} {l l' : List α} (h : l <+: l') {i : Nat} {x : α} (hi : l[i]? = some x) : l'[i]? = some x := by
  obtain ⟨r, rfl⟩ := h
  rw [List.getElem?_append_left (by
    have := List.getElem?_eq_some_iff.mp hi
    exact this.1)]
  exact hi

theorem Le.heap {c c' : Coll} (h : Le c c') : Sub c.heap c'.heap := by
  intro p o hp
  unfold Coll.heap at hp ⊢
  cases hx : c.cells[p]? with
  | none => simp [hx] at hp
  | some x => rw [prefix_get h.cells hx]; rw [hx] at hp; exact hp

theorem Le.get {c c' : Coll} (h : Le c c') {i : Nat} {r : Ref} (hi : c.values[i]? = some r) : c'.values[i]? = some r :=
  prefix_get h.values hi

theorem Le.push (c : Coll) (r : Ref) : Le c (c.push r) := ⟨List.prefix_rfl, List.prefix_append _ _⟩
theorem Le.new (c : Coll) (o : Option Obj) : Le c (c.new o) := ⟨List.prefix_append _ _, List.prefix_rfl⟩

/-- An object that was started is filled. -/
theorem Le.fill {c c1 c2 : Coll} {x : Obj} (hc1 : c.new none = { c1 with values := c.values }) (h : Le c1 c2) (hv : c.values <+: c1.values) :
    Le c (c2.fill c.cells.length x) ∧ Sub c2.heap (c2.fill c.cells.length x).heap
      ∧ (c2.fill c.cells.length x).heap c.cells.length = some x := by
  have e : c1.cells = c.cells ++ [none] := by
    have := congrArg Coll.cells hc1
    exact this.symm
  obtain ⟨l, hl⟩ := h.cells
  rw [e] at hl
  have hs : c2.cells.set c.cells.length (some x) = c.cells ++ (some x :: l) := by
    rw [← hl]; simp
  refine ⟨⟨?_, hv.trans h.values⟩, ?_, ?_⟩
  · show c.cells <+: c2.cells.set _ _
    rw [hs]; exact List.prefix_append _ _
  · intro p o hp
    unfold Coll.heap Coll.fill at *
    rw [hs]
    rw [← hl] at hp
    by_cases hp1 : p < c.cells.length
    · rw [List.getElem?_append_left hp1]
      rw [List.append_assoc, List.getElem?_append_left hp1] at hp
      exact hp
    · rw [List.append_assoc, List.getElem?_append_right (by omega)] at hp
      rw [List.getElem?_append_right (by omega)]
      cases hd : p - c.cells.length with
      | zero => rw [hd] at hp; simp at hp
      | succ d => rw [hd] at hp; simpa using hp
  · unfold Coll.heap Coll.fill
    rw [hs]
    simp

theorem new_heap (c : Coll) (o : Obj) : (c.new (some o)).heap c.cells.length = some o := by
  unfold Coll.heap Coll.new; simp

/-! ## Replacing an instance that does not occur -/

theorem replaceAll_none {f : List (Option Obj) → Ref → Out (List (Option Obj) × Ref × Bool)} {h : List (Option Obj)} :
    ∀ {rs : List Ref}, (∀ r ∈ rs, f h r = .ok (h, r, false)) → replaceAll f h rs = .ok (h, rs, false)
  | [], _ => rfl
  | r :: rs, hf => by
    have h1 := hf r List.mem_cons_self
    have h2 := replaceAll_none (rs := rs) (fun x hx => hf x (List.mem_cons_of_mem _ hx))
    simp only [replaceAll, h1, h2, Bool.or_self]

theorem denAll_mem {f : Ref → Option T} : ∀ {rs : List Ref} {ts : List T}, denAll f rs = some ts → ∀ r ∈ rs, ∃ t, f r = some t
  | [], _, _, r, hr => by simp at hr
  | x :: rs, ts, h, r, hr => by
    simp only [denAll] at h
    cases hx : f x with
    | none => simp [hx] at h
    | some t =>
      cases hs : denAll f rs with
      | none => simp [hx, hs] at h
      | some ts' =>
        rcases List.mem_cons.mp hr with rfl | hr
        · exact ⟨t, hx⟩
        · exact denAll_mem hs r hr

theorem denEntries_mem {f : Ref → Option T} {es : List (Ref × Ref)} {ts : List (T × T)} (h : denEntries f es = some ts) :
    ∀ e ∈ es, (∃ t, f e.1 = some t) ∧ ∃ t, f e.2 = some t := by
  intro e he
  have := denAll_entries.mp h
  have hm := denAll_mem this
  have h1 : e.1 ∈ flatten es := by unfold flatten; exact List.mem_flatMap.mpr ⟨e, he, by simp⟩
  have h2 : e.2 ∈ flatten es := by unfold flatten; exact List.mem_flatMap.mpr ⟨e, he, by simp⟩
  exact ⟨hm _ h1, hm _ h2⟩

theorem replace_none {h0 : Heap} {h : List (Option Obj)} {orig repl : Nat} (hsub : ∀ p o, h0 p = some o → (h[p]?).join = some o)
    (ho : h0 orig = none) : ∀ (n m : Nat), n ≤ m → ∀ (r : Ref) (t : T), den h0 n r = some t → replace orig repl m h r = .ok (h, r, false)
  | _, 0, _, .atom a, _, _ => rfl
  | _, m + 1, _, .atom a, _, _ => rfl
  | 0, m, _, .obj q, t, hd => by simp [den] at hd
  | n + 1, 0, hm, .obj q, t, hd => by omega
  | n + 1, m + 1, hm, .obj q, t, hd => by
    have ih := replace_none (repl := repl) hsub ho n m (by omega)
    simp only [den] at hd
    cases hq : h0 q with
    | none => simp [hq] at hd
    | some x =>
      have hne : q ≠ orig := by intro e; rw [e, ho] at hq; cases hq
      rw [hq] at hd
      simp only [replace, if_neg hne, hsub _ _ hq]
      cases x with
      | arr es =>
        simp only [Option.map_eq_some_iff] at hd
        obtain ⟨ts, hts, e⟩ := hd
        have : replaceAll (replace orig repl m) h es = .ok (h, es, false) :=
          replaceAll_none fun r hr => (denAll_mem hts r hr).elim fun t ht => ih r t ht
        simp only [this]
        rfl
      | map es =>
        simp only [Option.map_eq_some_iff] at hd
        obtain ⟨ts, hts, e⟩ := hd
        have : replaceAll (replace orig repl m) h (es.map (·.2)) = .ok (h, es.map (·.2), false) :=
          replaceAll_none fun r hr => by
            obtain ⟨e, he, rfl⟩ := List.mem_map.mp hr
            exact (denEntries_mem hts e he).2.elim fun t ht => ih _ t ht
        simp only [this]
        rfl
      | sens v =>
        simp only [Option.map_eq_some_iff] at hd
        obtain ⟨t', ht', e⟩ := hd
        simp only [ih v t' ht']
        rfl
      | bin bs => rfl
      | time x => rfl
      | typ x => rfl

end Verif.Stream
