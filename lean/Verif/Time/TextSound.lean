import Verif.Time.TextLemmas
set_option autoImplicit false
namespace Verif.Time

theorem pad_add : ∀ (k a n : Nat), pad k (a * 10 ^ k + n) = pad k n
  | 0, a, n => rfl
  | k + 1, a, n => by
    have hp : 0 < 10 ^ k := Nat.pos_of_ne_zero (by simp)
    have e : a * 10 ^ (k + 1) + n = (a * 10) * 10 ^ k + n := by ring
    rw [pad, pad, e, pad_add k (a * 10) n, Nat.add_comm (a * 10 * 10 ^ k) n, Nat.add_mul_div_right _ _ hp, Nat.add_mul_mod_self_right]

theorem readN_some : ∀ {k acc v : Nat} {s r : List Nat}, readN k acc s = some (v, r) → ∃ n, n < 10 ^ k ∧ s = pad k n ++ r ∧ v = acc * 10 ^ k + n
  | 0, acc, v, s, r, h => by
    rw [readN, Option.some.injEq, Prod.mk.injEq] at h
    exact ⟨0, by simp, by rw [h.2]; rfl, by rw [← h.1]; simp⟩
  | k + 1, acc, v, [], r, h => by simp [readN] at h
  | k + 1, acc, v, c :: s, r, h => by
    rw [readN] at h
    split at h
    · rename_i hc
      obtain ⟨n, hn, rfl, rfl⟩ := readN_some h
      have hp : 0 < 10 ^ k := Nat.pos_of_ne_zero (by simp)
      simp only [isDigit, Bool.and_eq_true, decide_eq_true_eq] at hc
      have e : ((c - 48) * 10 ^ k + n) / 10 ^ k = c - 48 := by
        rw [Nat.add_comm, Nat.add_mul_div_right _ _ hp, Nat.div_eq_of_lt hn, Nat.zero_add]
      refine ⟨(c - 48) * 10 ^ k + n, ?_, ?_, by ring⟩
      · have : (c - 48) * 10 ^ k ≤ 9 * 10 ^ k := Nat.mul_le_mul_right _ (by omega)
        rw [Nat.pow_succ]; omega
      · rw [pad, pad_add, e, List.cons_append]
        congr 1; omega
    · simp at h

theorem readN_some0 {k v : Nat} {s r : List Nat} (h : readN k 0 s = some (v, r)) : v < 10 ^ k ∧ s = pad k v ++ r := by
  obtain ⟨n, hn, hs, hv⟩ := readN_some h
  have : v = n := by rw [hv]; simp
  subst this
  exact ⟨hn, hs⟩

theorem expect_some {c : Nat} {s r : List Nat} (h : expect c s = some r) : s = c :: r := by
  cases s with
  | nil => simp [expect] at h
  | cons d s =>
    rw [expect] at h
    split at h
    · rename_i e; rw [e]; rw [Option.some.inj h]
    · simp at h

/-- The date and the clock in a text -/
def clock (y mo d h mi se : Nat) : List Nat :=
  pad 4 y ++ 45 :: (pad 2 mo ++ 45 :: (pad 2 d ++ 84 :: (pad 2 h ++ 58 :: (pad 2 mi ++ 58 :: pad 2 se))))

theorem clock_length (y mo d h mi se : Nat) : (clock y mo d h mi se).length = 19 := by simp [clock, pad_length]

theorem monthDay_yday : ∀ (l : Bool) (mo : Fin 13) (d : Fin 32), 1 ≤ mo.1 → 1 ≤ d.1 → d.1 ≤ daysIn l mo.1 →
    monthDay l (yday l mo.1 d.1) = (mo.1, d.1) ∧ yday l mo.1 d.1 < (if l then 366 else 365) := by decide +kernel

theorem daysIn_le : ∀ (l : Bool) (mo : Fin 13), daysIn l mo.1 ≤ 31 := by decide +kernel

theorem year_eq {s y : Int} (h1 : yearStart y ≤ s) (h2 : s < yearStart (y + 1)) : year s = y := by
  have a := le_year.2 h1
  by_contra hc
  have b : y + 1 ≤ year s := by omega
  have := le_year.1 b
  omega

theorem yearStart_next (y : Int) : yearStart (y + 1) = yearStart y + 86400 * if leap y = true then 366 else 365 := by
  have hl : leap y = true ↔ y % 4 = 0 ∧ (y % 100 ≠ 0 ∨ y % 400 = 0) := by simp [leap]
  by_cases h : leap y = true
  · rw [if_pos h]; rw [hl] at h; unfold yearStart; omega
  · rw [if_neg h]; rw [hl] at h; unfold yearStart; omega

theorem format_clock {y mo d h mi se : Nat} {t : T} (hy : y < 10000) (hmo : 1 ≤ mo) (hmo' : mo ≤ 12) (hd : 1 ≤ d) (hd' : d ≤ daysIn (leap y) mo)
    (hh : h < 24) (hmi : mi < 60) (hse : se < 60)
    (ht : t.sec + t.off = yearStart y + (yday (leap y) mo d * 86400 + h * 3600 + mi * 60 + se : Nat)) :
    format t = clock y mo d h mi se ++ (formatNano t.nsec ++ formatZone t.off) ∧ year (t.sec + t.off) = y := by
  have hd31 := daysIn_le (leap y) ⟨mo, by omega⟩
  simp only at hd31
  obtain ⟨md, yd⟩ := monthDay_yday (leap y) ⟨mo, by omega⟩ ⟨d, by omega⟩ hmo hd hd'
  simp only at md yd
  have hn := yearStart_next y
  have hday := yearStart_day y
  have ys : year (t.sec + t.off) = y := by
    refine year_eq (by omega) ?_
    rw [hn, ht]
    split at yd <;> rename_i hl
    · rw [if_pos hl]; omega
    · rw [if_neg hl]; omega
  refine ⟨?_, ys⟩
  have e1 : ((t.sec + t.off - yearStart y) / 86400).toNat = yday (leap y) mo d := by omega
  have e2 : ((t.sec + t.off) % 86400).toNat = h * 3600 + mi * 60 + se := by omega
  unfold format clock
  simp only [ys]
  rw [e1, e2, md]
  have e3 : (h * 3600 + mi * 60 + se) / 3600 = h := by omega
  have e4 : (h * 3600 + mi * 60 + se) / 60 % 60 = mi := by omega
  have e5 : (h * 3600 + mi * 60 + se) % 60 = se := by omega
  have e6 : formatYear (y : Int) = pad 4 y := by
    unfold formatYear
    rw [if_neg (by omega), Int.natAbs_natCast, width_small hy]
  simp only
  rw [e3, e4, e5, e6]
  simp

theorem valueOf_lt : ∀ (s : List Nat) (acc : Nat), (∀ c ∈ s, isDigit c = true) →
    s.foldl (fun a c => a * 10 + (c - 48)) acc < (acc + 1) * 10 ^ s.length
  | [], acc, _ => by simp
  | c :: s, acc, h => by
    have hc := h c (by simp)
    simp only [isDigit, Bool.and_eq_true, decide_eq_true_eq] at hc
    rw [List.foldl_cons]
    refine lt_of_lt_of_le (valueOf_lt s _ fun d hd => h d (by simp [hd])) ?_
    rw [List.length_cons, Nat.pow_succ]
    have : (acc * 10 + (c - 48) + 1) * 10 ^ s.length ≤ ((acc + 1) * 10) * 10 ^ s.length := Nat.mul_le_mul_right _ (by omega)
    linarith

theorem takeWhile_all {α : Type} (p : α → Bool) (l : List α) : ∀ c ∈ l.takeWhile p, p c = true := by
  induction l with
  | nil => simp
  | cons a l ih =>
    intro c hc
    rw [List.takeWhile_cons] at hc
    split at hc
    · rename_i ha
      rcases List.mem_cons.1 hc with rfl | h
      · exact ha
      · exact ih c h
    · simp at hc

theorem readNano_lt (s : List Nat) : (readNano s).1 < 1000000000 := by
  unfold readNano
  split
  · rename_i c s
    split
    · rename_i hc
      simp only
      have hd : ∀ x ∈ (c :: s.takeWhile isDigit).take 9, isDigit x = true := by
        intro x hx
        rcases List.mem_cons.1 (List.mem_of_mem_take hx) with rfl | h
        · exact hc
        · exact takeWhile_all _ _ x h
      have hl : ((c :: s.takeWhile isDigit).take 9).length ≤ 9 := by rw [List.length_take]; omega
      have hv := valueOf_lt _ 0 hd
      generalize (c :: s.takeWhile isDigit).take 9 = ds at *
      rw [show (0 + 1) * 10 ^ ds.length = 10 ^ ds.length by ring] at hv
      have hp : 0 < 10 ^ (9 - ds.length) := Nat.pos_of_ne_zero (by simp)
      have := Nat.mul_lt_mul_of_pos_right hv hp
      rw [← Nat.pow_add, show ds.length + (9 - ds.length) = 9 by omega] at this
      exact this
    · simp
  · simp

theorem readZone_bound {s : List Nat} {off : Int} (h : readZone s = some off) : off % 60 = 0 ∧ |off| ≤ 90000 := by
  unfold readZone at h
  split at h
  · cases h; decide
  · split at h
    · obtain ⟨hh, -, h⟩ := Option.bind_eq_some_iff.1 h
      obtain ⟨s1, -, h⟩ := Option.bind_eq_some_iff.1 h
      obtain ⟨m, -, h⟩ := Option.bind_eq_some_iff.1 h
      split at h
      · rename_i hb
        have h := Option.some.inj h
        rw [← h]
        constructor
        · split <;> omega
        · rw [abs_le]; split <;> omega
      · simp at h
    · simp at h
  · simp at h

theorem parse_sound {s : List Nat} {t : T} (h : parse s = some t) :
    ∃ y mo d hh mi se r, s = clock y mo d hh mi se ++ r ∧ format t = clock y mo d hh mi se ++ (formatNano t.nsec ++ formatZone t.off) ∧
      year (t.sec + t.off) = y ∧ y < 10000 ∧ t.WF ∧ t.off % 60 = 0 ∧ |t.off| ≤ 90000 := by
  unfold parse at h
  obtain ⟨⟨y, s1⟩, h1, h⟩ := Option.bind_eq_some_iff.1 h
  obtain ⟨s2, h2, h⟩ := Option.bind_eq_some_iff.1 h
  obtain ⟨⟨mo, s3⟩, h3, h⟩ := Option.bind_eq_some_iff.1 h
  obtain ⟨s4, h4, h⟩ := Option.bind_eq_some_iff.1 h
  obtain ⟨⟨d, s5⟩, h5, h⟩ := Option.bind_eq_some_iff.1 h
  obtain ⟨s6, h6, h⟩ := Option.bind_eq_some_iff.1 h
  obtain ⟨⟨hh, s7⟩, h7, h⟩ := Option.bind_eq_some_iff.1 h
  obtain ⟨s8, h8, h⟩ := Option.bind_eq_some_iff.1 h
  obtain ⟨⟨mi, s9⟩, h9, h⟩ := Option.bind_eq_some_iff.1 h
  obtain ⟨s10, h10, h⟩ := Option.bind_eq_some_iff.1 h
  obtain ⟨⟨se, s11⟩, h11, h⟩ := Option.bind_eq_some_iff.1 h
  simp only at h h2 h4 h6 h8 h10
  obtain ⟨off, h12, hh'⟩ := Option.bind_eq_some_iff.1 h
  clear h
  split at hh'
  · rename_i hc
    obtain ⟨c1, c2, c3, c4, c5, c6, c7⟩ := hc
    obtain ⟨y1, rfl⟩ := readN_some0 h1
    obtain ⟨-, rfl⟩ := readN_some0 h3
    obtain ⟨-, rfl⟩ := readN_some0 h5
    obtain ⟨-, rfl⟩ := readN_some0 h7
    obtain ⟨-, rfl⟩ := readN_some0 h9
    obtain ⟨-, rfl⟩ := readN_some0 h11
    have := expect_some h2; subst this
    have := expect_some h4; subst this
    have := expect_some h6; subst this
    have := expect_some h8; subst this
    have := expect_some h10; subst this
    have h := Option.some.inj hh'
    have hz := readZone_bound h12
    have hn := readNano_lt s11
    have fc := format_clock (t := t) (y := y) (mo := mo) (d := d) (h := hh) (mi := mi) (se := se) (by omega) c1 c2 c3 c4 c5 c6 c7
      (by rw [← h]; simp only; omega)
    refine ⟨y, mo, d, hh, mi, se, s11, by simp [clock], fc.1, fc.2, by omega, ⟨by rw [← h]; simp only; omega, by rw [← h]; simp only; omega⟩, ?_, ?_⟩
    · rw [← h]; exact hz.1
    · rw [← h]; exact hz.2
  · simp at hh'

end Verif.Time
