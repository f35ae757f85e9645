import Verif.Time.TextModel
import Verif.Time.Lemmas
set_option autoImplicit false
namespace Verif.Time

theorem readN_pad : ∀ (k acc n : Nat) (r : List Nat), readN k acc (pad k n ++ r) = some (acc * 10 ^ k + n % 10 ^ k, r)
  | 0, acc, n, r => by simp [pad, readN, Nat.mod_one]
  | k + 1, acc, n, r => by
    have hd : isDigit (48 + n / 10 ^ k % 10) = true := by simp [isDigit]; omega
    rw [pad, List.cons_append, readN, if_pos hd, readN_pad k]
    have : 48 + n / 10 ^ k % 10 - 48 = n / 10 ^ k % 10 := by omega
    rw [this, Nat.mod_pow_succ]
    congr 2
    ring

theorem readN2 {n : Nat} (h : n < 100) (r : List Nat) : readN 2 0 (pad 2 n ++ r) = some (n, r) := by
  rw [readN_pad, Nat.mod_eq_of_lt (by omega)]; simp

theorem readN2' {n : Nat} (h : n < 100) : readN 2 0 (pad 2 n) = some (n, []) := by
  have := readN2 h []; rwa [List.append_nil] at this

theorem expect_cons (c : Nat) (s : List Nat) : expect c (c :: s) = some s := by simp [expect]

theorem pad_digits : ∀ (k n : Nat), ∀ c ∈ pad k n, isDigit c = true
  | 0, n => by simp [pad]
  | k + 1, n => by
    intro c hc
    rw [pad, List.mem_cons] at hc
    rcases hc with rfl | hc
    · simp [isDigit]; omega
    · exact pad_digits k n c hc

theorem pad_length : ∀ (k n : Nat), (pad k n).length = k
  | 0, n => rfl
  | k + 1, n => by rw [pad, List.length_cons, pad_length]

theorem foldl_pad : ∀ (k acc n : Nat), (pad k n).foldl (fun a c => a * 10 + (c - 48)) acc = acc * 10 ^ k + n % 10 ^ k
  | 0, acc, n => by simp [pad, Nat.mod_one]
  | k + 1, acc, n => by
    rw [pad, List.foldl_cons, foldl_pad k]
    have : 48 + n / 10 ^ k % 10 - 48 = n / 10 ^ k % 10 := by omega
    rw [this, Nat.mod_pow_succ]
    ring

theorem trim_zeros : ∀ s : List Nat, ∃ k, s = trim s ++ List.replicate k 48
  | [] => ⟨0, rfl⟩
  | c :: s => by
    obtain ⟨k, hk⟩ := trim_zeros s
    rw [trim]
    split
    · rename_i h
      refine ⟨k + 1, ?_⟩
      rw [h.1] at hk
      rw [h.2, List.nil_append, List.replicate_succ]
      congr 1
    · exact ⟨k, by rw [List.cons_append, ← hk]⟩

theorem foldl_zeros : ∀ (k acc : Nat), (List.replicate k 48).foldl (fun a c => a * 10 + (c - 48)) acc = acc * 10 ^ k
  | 0, acc => by simp
  | k + 1, acc => by rw [List.replicate_succ, List.foldl_cons, foldl_zeros k]; ring

theorem valueOf_trim (n : Nat) (h : n < 1000000000) :
    valueOf (trim (pad 9 n)) * 10 ^ (9 - (trim (pad 9 n)).length) = n ∧ (trim (pad 9 n)).length ≤ 9 := by
  obtain ⟨k, hk⟩ := trim_zeros (pad 9 n)
  have hl := congrArg List.length hk
  rw [pad_length, List.length_append, List.length_replicate] at hl
  have hv := foldl_pad 9 0 n
  rw [hk, List.foldl_append, foldl_zeros] at hv
  have e : 9 - (trim (pad 9 n)).length = k := by omega
  rw [e]
  refine ⟨?_, by omega⟩
  unfold valueOf
  rw [hv, Nat.mod_eq_of_lt (by omega)]; simp

theorem trim_mem (s : List Nat) : ∀ c ∈ trim s, c ∈ s := by
  obtain ⟨k, hk⟩ := trim_zeros s
  intro c hc
  rw [hk]; exact List.mem_append_left _ hc

/-- What may follow the fraction -/
def Stops (z : List Nat) : Prop := ∀ c s, z = c :: s → isDigit c = false ∧ c ≠ 46

theorem readNano_format {n : Int} (h0 : 0 ≤ n) (h1 : n < 1000000000) {z : List Nat} (hz : Stops z) :
    readNano (formatNano n ++ z) = (n.toNat, z) := by
  unfold formatNano
  split
  · rename_i h
    subst h
    rw [List.nil_append]
    unfold readNano
    split
    · exact absurd rfl (hz _ _ rfl).2
    · rfl
  · rename_i hne
    obtain ⟨v, l⟩ := valueOf_trim n.toNat (by omega)
    have hd : ∀ c ∈ trim (pad 9 n.toNat), isDigit c = true := fun c hc => pad_digits _ _ _ (trim_mem _ _ hc)
    cases ht : trim (pad 9 n.toNat) with
    | nil => rw [ht] at v; simp [valueOf] at v; omega
    | cons c s =>
      rw [ht] at v l hd
      have hw : (s ++ z).takeWhile isDigit = s ∧ (s ++ z).dropWhile isDigit = z := by
        have hs : ∀ c ∈ s, isDigit c = true := fun c hc => hd c (List.mem_cons_of_mem _ hc)
        rw [List.takeWhile_append_of_pos hs, List.dropWhile_append_of_pos hs]
        cases z with
        | nil => simp
        | cons d z => simp [(hz d z rfl).1]
      rw [List.cons_append, List.cons_append, readNano, if_pos (hd c (by simp)), hw.1, hw.2, List.take_of_length_le l]
      simp only
      rw [v]

theorem formatZone_stops (off : Int) : Stops (formatZone off) := by
  unfold formatZone
  intro c s h
  split at h
  · cases h; decide
  · simp only [List.cons.injEq] at h
    rw [← h.1]
    split <;> decide

theorem tdiv60 (n : Int) : n.tdiv 60 = if 0 ≤ n then n / 60 else -(-n / 60) := by
  split
  · rename_i h; exact Int.tdiv_eq_ediv_of_nonneg h
  · rename_i h
    have := Int.neg_tdiv (-n) 60
    rw [Int.neg_neg] at this
    rw [this, Int.tdiv_eq_ediv_of_nonneg (by omega)]

theorem readZone_format {off : Int} (h : |off| < 86400) : readZone (formatZone off) = some (60 * off.tdiv 60) := by
  rw [abs_lt] at h
  unfold formatZone
  split
  · rename_i h0; subst h0; rfl
  · have hz : (off.tdiv 60).natAbs < 1440 := by rw [tdiv60]; split <;> omega
    have r1 := readN2 (show (off.tdiv 60).natAbs / 60 < 100 by omega) (58 :: pad 2 ((off.tdiv 60).natAbs % 60))
    have r2 := readN2' (show (off.tdiv 60).natAbs % 60 < 100 by omega)
    simp only
    split
    · rename_i hn
      rw [readZone, if_pos (by decide), r1, Option.bind_some, expect_cons, Option.bind_some, r2, Option.bind_some, if_pos ⟨rfl, by omega, by omega⟩]
      · congr 1; simp only [if_pos]; omega
      · intro hh; simp at hh
    · rename_i hn
      rw [readZone, if_pos (by decide), r1, Option.bind_some, expect_cons, Option.bind_some, r2, Option.bind_some, if_pos ⟨rfl, by omega, by omega⟩]
      · congr 1; rw [if_neg (by decide)]; omega
      · intro hh; simp at hh

theorem monthDay_ok : ∀ (l : Bool) (d : Fin 366), d.1 < 365 ∨ l = true →
    1 ≤ (monthDay l d).1 ∧ (monthDay l d).1 ≤ 12 ∧ 1 ≤ (monthDay l d).2 ∧ (monthDay l d).2 ≤ daysIn l (monthDay l d).1 ∧ (monthDay l d).2 ≤ 31 ∧
      yday l (monthDay l d).1 (monthDay l d).2 = d.1 := by decide +kernel

theorem day_bound (s : Int) : 0 ≤ (s - yearStart (year s)) / 86400 ∧ (s - yearStart (year s)) / 86400 < (if leap (year s) = true then 366 else 365) := by
  obtain ⟨h1, h2⟩ := year_spec s
  refine ⟨by omega, ?_⟩
  have hl : leap (year s) = true ↔ year s % 4 = 0 ∧ (year s % 100 ≠ 0 ∨ year s % 400 = 0) := by simp [leap]
  have hd : yearStart (year s + 1) - yearStart (year s) = 86400 * if leap (year s) = true then 366 else 365 := by
    by_cases h : leap (year s) = true
    · rw [if_pos h]; rw [hl] at h; unfold yearStart; omega
    · rw [if_neg h]; rw [hl] at h; unfold yearStart; omega
  split at hd
  · rename_i h; rw [if_pos h]; omega
  · rename_i h; rw [if_neg h]; omega

theorem yearStart_day (y : Int) : yearStart y % 86400 = 0 := by unfold yearStart; omega

theorem width_small {n : Nat} (h : n < 10000) : width n = 4 := by rw [width, if_pos h]

theorem width_large {n : Nat} (h : 10000 ≤ n) : ∃ k, width n = k + 5 := by
  induction n using Nat.strongRecOn with
  | ind n ih =>
    rw [width, if_neg (by omega)]
    by_cases h' : 10000 ≤ n / 10
    · obtain ⟨k, hk⟩ := ih (n / 10) (by omega) h'
      exact ⟨k + 1, by rw [hk]; omega⟩
    · exact ⟨0, by rw [width_small (by omega)]⟩

theorem parse_format {t : T} (w : t.WF) (ho : |t.off| < 86400) (h1 : 0 ≤ year (t.sec + t.off)) (h2 : year (t.sec + t.off) ≤ 9999) :
    parse (format t) = some ⟨t.sec + t.off - 60 * t.off.tdiv 60, t.nsec, 60 * t.off.tdiv 60⟩ := by
  generalize hs : t.sec + t.off = s at h1 h2
  obtain ⟨d1, d2⟩ := day_bound s
  have hdlt : ((s - yearStart (year s)) / 86400).toNat < 366 := by split at d2 <;> omega
  have hmd := monthDay_ok (leap (year s)) ⟨((s - yearStart (year s)) / 86400).toNat, hdlt⟩ (by
    by_cases h : leap (year s) = true
    · exact .inr h
    · rw [if_neg h] at d2; exact .inl (by simp only; omega))
  simp only at hmd
  obtain ⟨m1, m2, m3, m4, m5, m6⟩ := hmd
  have y4 : formatYear (year s) = pad 4 (year s).toNat := by
    unfold formatYear
    have e : (year s).natAbs = (year s).toNat := by omega
    rw [if_neg (by omega), e, width_small (by omega)]
  have hy : (((year s).toNat : Nat) : Int) = year s := by omega
  unfold parse format
  simp only [hs]
  rw [y4, readN_pad, Option.bind_some]
  simp only
  rw [expect_cons, Option.bind_some, readN2 (by omega), Option.bind_some]
  simp only
  rw [expect_cons, Option.bind_some, readN2 (by omega), Option.bind_some]
  simp only
  rw [expect_cons, Option.bind_some, readN2 (by omega), Option.bind_some]
  simp only
  rw [expect_cons, Option.bind_some, readN2 (by omega), Option.bind_some]
  simp only
  rw [expect_cons, Option.bind_some, readN2 (by omega), Option.bind_some]
  simp only
  rw [readNano_format w.nonneg w.lt (formatZone_stops _)]
  simp only
  rw [readZone_format ho, Option.bind_some]
  have hmod : 0 * 10 ^ 4 + (year s).toNat % 10 ^ 4 = (year s).toNat := by rw [Nat.mod_eq_of_lt (by omega), Nat.zero_mul, Nat.zero_add]
  rw [hmod, hy, if_pos ⟨m1, m2, m3, m4, by omega, by omega, by omega⟩, m6]
  have hn := w.nonneg
  have z := yearStart_day (year s)
  have sp := year_spec s
  congr 2
  · push_cast; omega
  · omega

theorem parse_year_small {t : T} (h : year (t.sec + t.off) < 0) : parse (format t) = none := by
  unfold parse format formatYear
  simp only
  rw [if_pos h, List.cons_append, readN, if_neg (by decide)]
  rfl

theorem parse_year_large {t : T} (h : 9999 < year (t.sec + t.off)) : parse (format t) = none := by
  obtain ⟨k, hk⟩ := width_large (n := (year (t.sec + t.off)).natAbs) (by omega)
  have key : ∀ (j k n acc : Nat) (r : List Nat), ∃ v c s, readN j acc (pad (k + 1 + j) n ++ r) = some (v, c :: s) ∧ isDigit c = true := by
    intro j
    induction j with
    | zero =>
      intro k n acc r
      exact ⟨acc, _, pad k n ++ r, rfl, by simp [isDigit]; omega⟩
    | succ j ih =>
      intro k n acc r
      rw [show k + 1 + (j + 1) = (k + 1 + j) + 1 by omega, pad, List.cons_append, readN, if_pos (by simp [isDigit]; omega)]
      exact ih k n _ r
  unfold parse format formatYear
  simp only
  rw [if_neg (by omega), hk, show k + 5 = k + 1 + 4 by omega]
  obtain ⟨v, c, s, e, hd⟩ := key 4 k (year (t.sec + t.off)).natAbs 0 _
  rw [e, Option.bind_some]
  have : c ≠ 45 := by rintro rfl; simp [isDigit] at hd
  simp [expect, this]

end Verif.Time
