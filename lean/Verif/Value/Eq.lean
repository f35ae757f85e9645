import Verif.Value.Model
import Mathlib.Data.List.Perm.Basic
import Mathlib.Data.List.Sort
/-!
# Equality of values is an equivalence and hash codes respect it: lemmas
-/
namespace Verif.Value

mutual
/-- Values without NaN in which no map has two equal keys. -/
def WF : Val → Prop
  | .float f => f.isNaN = false
  | .sens v => WF v
  | .arr vs => WFs vs
  | .map es => WFes es ∧ es.Pairwise fun a b => eq a.1 b.1 = false
  | .entry k v => WF k ∧ WF v
  | _ => True

def WFs : List Val → Prop
  | [] => True
  | v :: vs => WF v ∧ WFs vs

def WFes : List (Val × Val) → Prop
  | [] => True
  | (k, v) :: r => WF k ∧ WF v ∧ WFes r
end

theorem WFs_iff (vs : List Val) : WFs vs ↔ ∀ v ∈ vs, WF v := by
  induction vs with
  | nil => simp [WFs]
  | cons v vs ih => simp [WFs, ih]

theorem WFes_iff (es : List (Val × Val)) : WFes es ↔ ∀ e ∈ es, WF e.1 ∧ WF e.2 := by
  induction es with
  | nil => simp [WFes]
  | cons e es ih => obtain ⟨k, v⟩ := e; simp [WFes, ih, and_assoc]

/-! ### float64 -/
namespace F64

theorem eq_iff (a b : F64) : eq a b = true ↔ a.isNaN = false ∧ b.isNaN = false ∧ a.key = b.key := by
  simp [eq, and_assoc]

/-- Equal floats have the same bits, or are the two zeros. -/
theorem key_inj {a b : F64} (h : a.key = b.key) : a = b ∨ (a.mag = 0 ∧ b.mag = 0) := by
  have e : a.mag = b.mag ∧ (a.mag ≠ 0 → a.neg = b.neg) := by
    unfold key at h
    cases ha : a.neg <;> cases hb : b.neg <;> simp only [ha, hb, if_true, if_false, Bool.false_eq_true] at h <;>
      constructor <;> first | (intro; first | rfl | (exfalso; omega)) | omega
  by_cases hz : a.mag = 0
  · exact .inr ⟨hz, e.1 ▸ hz⟩
  · left
    have e2 := e.2 hz
    have e1 := e.1
    apply BitVec.eq_of_toNat_eq
    have ha := a.isLt
    have hb := b.isLt
    simp only [mag, neg, decide_eq_decide] at e1 e2
    by_cases hg : a.toNat ≥ 2 ^ 63
    · have := e2.1 hg; omega
    · have : ¬ b.toNat ≥ 2 ^ 63 := fun hc => hg (e2.2 hc)
      omega

theorem toInt_zero {a : F64} (h : a.mag = 0) : a.toInt = 0 := by
  unfold toInt
  rw [h]
  simp

theorem toInt_congr {a b : F64} (h : a.key = b.key) : a.toInt = b.toInt := by
  rcases key_inj h with rfl | ⟨h1, h2⟩
  · rfl
  · rw [toInt_zero h1, toInt_zero h2]

end F64

/-! ### Laws on a set of values -/

/-- Equality behaves on the values of `S`. -/
structure Laws (S : Val → Prop) : Prop where
  refl : ∀ a, S a → eq a a = true
  symm : ∀ a b, S a → S b → eq a b = true → eq b a = true
  trans : ∀ a b c, S a → S b → S c → eq a b = true → eq b c = true → eq a c = true
  hash : ∀ a b, S a → S b → eq a b = true → hash a = hash b

/-! ### Slices -/

theorem eqSlice_iff (as bs : List Val) : eqSlice as bs = true ↔ List.Forall₂ (fun a b => eq a b = true) as bs := by
  induction as generalizing bs with
  | nil => cases bs <;> simp [eqSlice]
  | cons a as ih => cases bs <;> simp [eqSlice, ih]

theorem hashes_eq (vs : List Val) : hashes vs = vs.map hash := by
  induction vs with
  | nil => rfl
  | cons v vs ih => simp [hashes, ih]

theorem entryHashes_eq (es : List (Val × Val)) : entryHashes es = es.map fun e => hash e.1 ^^^ hash e.2 := by
  induction es with
  | nil => rfl
  | cons e es ih => obtain ⟨k, v⟩ := e; simp [entryHashes, ih]

variable {S : Val → Prop}

theorem slice_refl (L : Laws S) {as : List Val} (ha : ∀ a ∈ as, S a) : eqSlice as as = true := by
  rw [eqSlice_iff, List.forall₂_same]
  exact fun a h => L.refl a (ha a h)

theorem slice_symm (L : Laws S) {as bs : List Val} (ha : ∀ a ∈ as, S a) (hb : ∀ b ∈ bs, S b)
    (h : eqSlice as bs = true) : eqSlice bs as = true := by
  rw [eqSlice_iff] at h ⊢
  induction h with
  | nil => exact .nil
  | cons h _ ih =>
    exact .cons (L.symm _ _ (ha _ (by simp)) (hb _ (by simp)) h)
      (ih (fun a h => ha a (by simp [h])) (fun b h => hb b (by simp [h])))

theorem slice_trans (L : Laws S) {as bs cs : List Val} (ha : ∀ a ∈ as, S a) (hb : ∀ b ∈ bs, S b) (hc : ∀ c ∈ cs, S c)
    (h : eqSlice as bs = true) (h' : eqSlice bs cs = true) : eqSlice as cs = true := by
  rw [eqSlice_iff] at h h' ⊢
  induction h generalizing cs with
  | nil => exact h'
  | cons h _ ih =>
    cases h' with
    | cons g gs =>
      exact .cons (L.trans _ _ _ (ha _ (by simp)) (hb _ (by simp)) (hc _ (by simp)) h g)
        (ih (fun a h => ha a (by simp [h])) (fun b h => hb b (by simp [h])) (fun c h => hc c (by simp [h])) gs)

theorem slice_hash (L : Laws S) {as bs : List Val} (ha : ∀ a ∈ as, S a) (hb : ∀ b ∈ bs, S b)
    (h : eqSlice as bs = true) : as.map hash = bs.map hash := by
  rw [eqSlice_iff] at h
  induction h with
  | nil => rfl
  | cons h _ ih =>
    rw [List.map_cons, List.map_cons, L.hash _ _ (ha _ (by simp)) (hb _ (by simp)) h,
      ih (fun a h => ha a (by simp [h])) (fun b h => hb b (by simp [h]))]

/-! ### Maps -/

/-- Entries with equal key and value. -/
def REnt (a b : Val × Val) : Prop := eq a.1 b.1 = true ∧ eq a.2 b.2 = true

/-- The keys are pairwise different. -/
def Diff (es : List (Val × Val)) : Prop := es.Pairwise fun a b => eq a.1 b.1 = false

theorem eqMap_iff (as bs : List (Val × Val)) : eqMap as bs = true ↔
    ∀ a ∈ as, ∃ b, bs.find? (fun e => eq a.1 e.1) = some b ∧ eq a.2 b.2 = true := by
  induction as with
  | nil => simp [eqMap]
  | cons a as ih =>
    obtain ⟨k, v⟩ := a
    simp only [eqMap, Bool.and_eq_true, ih, List.mem_cons, forall_eq_or_imp]
    apply and_congr_left
    intro _
    cases bs.find? fun e => eq k e.1 <;> simp

/-- Every entry of the first map has a partner of its own in the second. -/
theorem match_of_eqMap (L : Laws S) {as bs : List (Val × Val)} (ha : ∀ e ∈ as, S e.1) (hb : ∀ e ∈ bs, S e.1)
    (hd : Diff as) (h : eqMap as bs = true) :
    ∃ bs' rest, (bs' ++ rest).Perm bs ∧ List.Forall₂ REnt as bs' := by
  rw [eqMap_iff] at h
  induction as with
  | nil => exact ⟨[], bs, .refl _, .nil⟩
  | cons a as ih =>
    have hd' := List.pairwise_cons.1 hd
    obtain ⟨bs', rest, hp, hf⟩ := ih (fun e he => ha e (by simp [he])) hd'.2 (fun e he => h e (by simp [he]))
    obtain ⟨b, hfind, hv⟩ := h a (by simp)
    have hbm : b ∈ bs := List.mem_of_find?_eq_some hfind
    have hk : eq a.1 b.1 = true := by have := List.find?_some hfind; simpa using this
    have hr : b ∈ rest := by
      rcases List.mem_append.1 (hp.mem_iff.2 hbm) with hm | hm
      · exfalso
        obtain ⟨a2, ha2, hR⟩ : ∃ a2 ∈ as, REnt a2 b := by
          clear hp ih
          induction hf with
          | nil => cases hm
          | cons hR hf' ih2 =>
            rename_i x y xs ys
            rcases List.mem_cons.1 hm with rfl | hm
            · exact ⟨x, by simp, hR⟩
            · obtain ⟨a2, h1, h2⟩ := ih2 (fun e he => ha e (by
                rcases List.mem_cons.1 he with rfl | he
                · simp
                · simp [he])) (hd.sublist (by simp)) (fun e he => h e (by
                rcases List.mem_cons.1 he with rfl | he
                · simp
                · simp [he])) ⟨fun e he => hd'.1 e (by simp [he]), hd'.2.sublist (by simp)⟩ hm
              exact ⟨a2, by simp [h1], h2⟩
        have s2 := L.symm _ _ (ha a2 (by simp [ha2])) (hb b hbm) hR.1
        have := L.trans _ _ _ (ha a (by simp)) (hb b hbm) (ha a2 (by simp [ha2])) hk s2
        rw [hd'.1 a2 ha2] at this; cases this
      · exact hm
    obtain ⟨r1, r2, rfl⟩ := List.append_of_mem hr
    refine ⟨b :: bs', r1 ++ r2, ?_, .cons ⟨hk, hv⟩ hf⟩
    refine List.Perm.trans ?_ hp
    rw [← List.append_assoc bs' r1, List.cons_append, ← List.append_assoc]
    exact List.perm_middle.symm

/-- Two maps are equal exactly when their entries can be paired off. -/
theorem eqMaps_iff (L : Laws S) {as bs : List (Val × Val)} (ha : ∀ e ∈ as, S e.1) (hb : ∀ e ∈ bs, S e.1)
    (hda : Diff as) (hdb : Diff bs) :
    (as.length == bs.length && eqMap as bs) = true ↔ ∃ bs', bs'.Perm bs ∧ List.Forall₂ REnt as bs' := by
  constructor
  · intro h
    rw [Bool.and_eq_true, beq_iff_eq] at h
    obtain ⟨bs', rest, hp, hf⟩ := match_of_eqMap L ha hb hda h.2
    have h1 := hf.length_eq
    have h2 := hp.length_eq
    rw [List.length_append] at h2
    have : rest = [] := List.length_eq_zero_iff.1 (by omega)
    subst this
    rw [List.append_nil] at hp
    exact ⟨bs', hp, hf⟩
  · rintro ⟨bs', hp, hf⟩
    rw [Bool.and_eq_true, beq_iff_eq]
    refine ⟨hf.length_eq.trans hp.length_eq, ?_⟩
    rw [eqMap_iff]
    intro a hm
    obtain ⟨b, hbm, hR⟩ : ∃ b ∈ bs, REnt a b := by
      obtain ⟨b, h1, h2⟩ : ∃ b ∈ bs', REnt a b := by
        clear hp ha hda
        induction hf with
        | nil => cases hm
        | cons hR _ ih =>
          rcases List.mem_cons.1 hm with rfl | hm
          · exact ⟨_, by simp, hR⟩
          · obtain ⟨b, h1, h2⟩ := ih hm
            exact ⟨b, by simp [h1], h2⟩
      exact ⟨b, hp.mem_iff.1 h1, h2⟩
    cases hfind : bs.find? fun e => eq a.1 e.1 with
    | none =>
      have := List.find?_eq_none.1 hfind b hbm
      exact absurd hR.1 (by simpa using this)
    | some c =>
      refine ⟨c, rfl, ?_⟩
      have hcm : c ∈ bs := List.mem_of_find?_eq_some hfind
      have hk : eq a.1 c.1 = true := by have := List.find?_some hfind; simpa using this
      have hbc : eq b.1 c.1 = true := L.trans _ _ _ (hb b hbm) (ha a hm) (hb c hcm)
        (L.symm _ _ (ha a hm) (hb b hbm) hR.1) hk
      have hcb := L.symm _ _ (hb b hbm) (hb c hcm) hbc
      have : b = c := by
        clear hp hf hfind
        induction bs with
        | nil => cases hbm
        | cons x xs ih =>
          have hd' := List.pairwise_cons.1 hdb
          rcases List.mem_cons.1 hbm with h1 | h1 <;> rcases List.mem_cons.1 hcm with h2 | h2
          · rw [h1, h2]
          · rw [h1, hd'.1 c h2] at hbc; cases hbc
          · rw [h2, hd'.1 b h1] at hcb; cases hcb
          · exact ih (fun e he => hb e (by simp [he])) hd'.2 h1 h2
      rw [← this]; exact hR.2

theorem insertInt_perm (x : BitVec 64) (ys : List (BitVec 64)) : (insertInt x ys).Perm (x :: ys) := by
  induction ys with
  | nil => exact .refl _
  | cons y ys ih =>
    rw [insertInt]; split
    · exact .refl _
    · exact (ih.cons y).trans (List.Perm.swap x y ys)

theorem insertInt_sorted (x : BitVec 64) {ys : List (BitVec 64)} (h : ys.Pairwise fun a b => a.toInt ≤ b.toInt) :
    (insertInt x ys).Pairwise fun a b => a.toInt ≤ b.toInt := by
  induction ys with
  | nil => exact List.pairwise_singleton _ _
  | cons y ys ih =>
    rw [List.pairwise_cons] at h
    rw [insertInt]; split
    · rw [List.pairwise_cons]
      refine ⟨?_, List.pairwise_cons.2 h⟩
      intro z hz
      rcases List.mem_cons.1 hz with rfl | hz
      · assumption
      · have := h.1 z hz; omega
    · rw [List.pairwise_cons]
      refine ⟨?_, ih h.2⟩
      intro z hz
      rcases List.mem_cons.1 ((insertInt_perm x ys).mem_iff.1 hz) with rfl | hz
      · omega
      · exact h.1 z hz

theorem sortInts_self (xs : List (BitVec 64)) :
    (sortInts xs).Perm xs ∧ (sortInts xs).Pairwise fun a b => a.toInt ≤ b.toInt := by
  induction xs with
  | nil => exact ⟨.refl _, .nil⟩
  | cons x xs ih => exact ⟨(insertInt_perm x _).trans (ih.1.cons x), insertInt_sorted x ih.2⟩

theorem sortInts_perm {xs ys : List (BitVec 64)} (h : xs.Perm ys) : sortInts xs = sortInts ys := by
  have hp : (sortInts xs).Perm (sortInts ys) := (sortInts_self xs).1.trans (h.trans (sortInts_self ys).1.symm)
  refine List.Perm.eq_of_pairwise ?_ (sortInts_self xs).2 (sortInts_self ys).2 hp
  intro a b _ _ h1 h2
  exact BitVec.eq_of_toInt_eq (by omega)

theorem forall₂_flip {as bs : List (Val × Val)} (L : Laws S) (ha : ∀ e ∈ as, S e.1 ∧ S e.2) (hb : ∀ e ∈ bs, S e.1 ∧ S e.2)
    (h : List.Forall₂ REnt as bs) : List.Forall₂ REnt bs as := by
  induction h with
  | nil => exact .nil
  | cons h _ ih =>
    have h1 := ha _ (List.mem_cons_self ..)
    have h2 := hb _ (List.mem_cons_self ..)
    exact .cons ⟨L.symm _ _ h1.1 h2.1 h.1, L.symm _ _ h1.2 h2.2 h.2⟩
      (ih (fun a h => ha a (by simp [h])) (fun b h => hb b (by simp [h])))

theorem forall₂_trans {as bs cs : List (Val × Val)} (L : Laws S) (ha : ∀ e ∈ as, S e.1 ∧ S e.2)
    (hb : ∀ e ∈ bs, S e.1 ∧ S e.2) (hc : ∀ e ∈ cs, S e.1 ∧ S e.2)
    (h : List.Forall₂ REnt as bs) (h' : List.Forall₂ REnt bs cs) : List.Forall₂ REnt as cs := by
  induction h generalizing cs with
  | nil => exact h'
  | cons h _ ih =>
    cases h' with
    | cons g gs =>
      have h1 := ha _ (List.mem_cons_self ..)
      have h2 := hb _ (List.mem_cons_self ..)
      have h3 := hc _ (List.mem_cons_self ..)
      exact .cons ⟨L.trans _ _ _ h1.1 h2.1 h3.1 h.1 g.1, L.trans _ _ _ h1.2 h2.2 h3.2 h.2 g.2⟩
        (ih (fun a h => ha a (by simp [h])) (fun b h => hb b (by simp [h])) (fun c h => hc c (by simp [h])) gs)

theorem maps_refl (L : Laws S) {as : List (Val × Val)} (ha : ∀ e ∈ as, S e.1 ∧ S e.2) (hd : Diff as) :
    (as.length == as.length && eqMap as as) = true := by
  rw [eqMaps_iff L (fun e h => (ha e h).1) (fun e h => (ha e h).1) hd hd]
  refine ⟨as, .refl _, ?_⟩
  rw [List.forall₂_same]
  exact fun e he => ⟨L.refl _ (ha e he).1, L.refl _ (ha e he).2⟩

theorem maps_symm (L : Laws S) {as bs : List (Val × Val)} (ha : ∀ e ∈ as, S e.1 ∧ S e.2) (hb : ∀ e ∈ bs, S e.1 ∧ S e.2)
    (hda : Diff as) (hdb : Diff bs) (h : (as.length == bs.length && eqMap as bs) = true) :
    (bs.length == as.length && eqMap bs as) = true := by
  rw [eqMaps_iff L (fun e h => (ha e h).1) (fun e h => (hb e h).1) hda hdb] at h
  rw [eqMaps_iff L (fun e h => (hb e h).1) (fun e h => (ha e h).1) hdb hda]
  obtain ⟨bs', hp, hf⟩ := h
  have hf' := forall₂_flip L ha (fun e he => hb e (hp.mem_iff.1 he)) hf
  obtain ⟨as', h1, h2⟩ := List.perm_comp_forall₂ hp.symm hf'
  exact ⟨as', h2, h1⟩

theorem maps_trans (L : Laws S) {as bs cs : List (Val × Val)} (ha : ∀ e ∈ as, S e.1 ∧ S e.2)
    (hb : ∀ e ∈ bs, S e.1 ∧ S e.2) (hc : ∀ e ∈ cs, S e.1 ∧ S e.2) (hda : Diff as) (hdb : Diff bs) (hdc : Diff cs)
    (h : (as.length == bs.length && eqMap as bs) = true) (h' : (bs.length == cs.length && eqMap bs cs) = true) :
    (as.length == cs.length && eqMap as cs) = true := by
  rw [eqMaps_iff L (fun e h => (ha e h).1) (fun e h => (hb e h).1) hda hdb] at h
  rw [eqMaps_iff L (fun e h => (hb e h).1) (fun e h => (hc e h).1) hdb hdc] at h'
  rw [eqMaps_iff L (fun e h => (ha e h).1) (fun e h => (hc e h).1) hda hdc]
  obtain ⟨bs', hp, hf⟩ := h
  obtain ⟨cs', hp', hf'⟩ := h'
  obtain ⟨cs'', h1, h2⟩ := List.perm_comp_forall₂ hp hf'
  refine ⟨cs'', h2.trans hp', ?_⟩
  exact forall₂_trans L ha (fun e he => hb e (hp.mem_iff.1 he)) (fun e he => hc e ((h2.trans hp').mem_iff.1 he)) hf h1

theorem maps_hash (L : Laws S) {as bs : List (Val × Val)} (ha : ∀ e ∈ as, S e.1 ∧ S e.2)
    (hb : ∀ e ∈ bs, S e.1 ∧ S e.2) (hda : Diff as) (hdb : Diff bs)
    (h : (as.length == bs.length && eqMap as bs) = true) : sortInts (entryHashes as) = sortInts (entryHashes bs) := by
  rw [eqMaps_iff L (fun e h => (ha e h).1) (fun e h => (hb e h).1) hda hdb] at h
  obtain ⟨bs', hp, hf⟩ := h
  apply sortInts_perm
  rw [entryHashes_eq, entryHashes_eq]
  have : (as.map fun e => hash e.1 ^^^ hash e.2) = bs'.map fun e => hash e.1 ^^^ hash e.2 := by
    have hb' : ∀ e ∈ bs', S e.1 ∧ S e.2 := fun e he => hb e (hp.mem_iff.1 he)
    clear hp hda
    induction hf with
    | nil => rfl
    | cons h _ ih =>
      have h1 := ha _ (List.mem_cons_self ..)
      have h2 := hb' _ (List.mem_cons_self ..)
      rw [List.map_cons, List.map_cons, L.hash _ _ h1.1 h2.1 h.1, L.hash _ _ h1.2 h2.2 h.2,
        ih (fun a h => ha a (by simp [h])) (fun b h => hb' b (by simp [h]))]
  rw [this]
  exact hp.map _

/-! ### All values -/

theorem laws_upto (n : Nat) : Laws fun a => WF a ∧ sizeOf a < n := by
  induction n with
  | zero => exact ⟨fun a h => by omega, fun a b h => by omega, fun a b c h => by omega, fun a b h => by omega⟩
  | succ n ih =>
    have arrS : ∀ {vs : List Val}, WF (.arr vs) ∧ sizeOf (Val.arr vs) < n + 1 → ∀ v ∈ vs, WF v ∧ sizeOf v < n := by
      intro vs h v hv
      refine ⟨(WFs_iff vs).1 (by simpa [WF] using h.1) v hv, ?_⟩
      have := List.sizeOf_lt_of_mem hv
      have h2 := h.2
      simp only [Val.arr.sizeOf_spec] at h2
      omega
    have mapS : ∀ {es : List (Val × Val)}, WF (.map es) ∧ sizeOf (Val.map es) < n + 1 →
        Diff es ∧ ∀ e ∈ es, (WF e.1 ∧ sizeOf e.1 < n) ∧ (WF e.2 ∧ sizeOf e.2 < n) := by
      intro es h
      have hw := h.1
      rw [WF, WFes_iff] at hw
      refine ⟨hw.2, fun e he => ?_⟩
      have := List.sizeOf_lt_of_mem he
      have h2 := h.2
      obtain ⟨k, v⟩ := e
      simp only [Val.map.sizeOf_spec, Prod.mk.sizeOf_spec] at h2 this
      have := hw.1 _ he
      exact ⟨⟨this.1, by simp only []; omega⟩, ⟨this.2, by simp only []; omega⟩⟩
    have sensS : ∀ {v : Val}, WF (.sens v) ∧ sizeOf (Val.sens v) < n + 1 → WF v ∧ sizeOf v < n := by
      intro v h
      have h2 := h.2
      simp only [Val.sens.sizeOf_spec] at h2
      exact ⟨by simpa [WF] using h.1, by omega⟩
    have entS : ∀ {k v : Val}, WF (.entry k v) ∧ sizeOf (Val.entry k v) < n + 1 →
        (WF k ∧ sizeOf k < n) ∧ (WF v ∧ sizeOf v < n) := by
      intro k v h
      have h2 := h.2
      simp only [Val.entry.sizeOf_spec] at h2
      have h1 := h.1
      rw [WF] at h1
      exact ⟨⟨h1.1, by omega⟩, ⟨h1.2, by omega⟩⟩
    constructor
    · intro a ha
      cases a with
      | float f => rw [eq, F64.eq_iff]; have := ha.1; rw [WF] at this; exact ⟨this, this, rfl⟩
      | sens v => rw [eq]; exact ih.refl _ (sensS ha)
      | arr vs => rw [eq]; exact slice_refl ih (arrS ha)
      | map es => rw [eq]; exact maps_refl ih (mapS ha).2 (mapS ha).1
      | entry k v => rw [eq, ih.refl _ (entS ha).1, ih.refl _ (entS ha).2]; rfl
      | _ => simp [eq]
    · intro a b ha hb h
      cases a <;> cases b <;> (try (simp [eq] at h; done)) <;> (try (simp only [eq, beq_iff_eq] at h ⊢; exact h.symm))
      · rfl
      · rw [eq, F64.eq_iff] at h ⊢; exact ⟨h.2.1, h.1, h.2.2.symm⟩
      · rw [eq] at h ⊢; exact ih.symm _ _ (sensS ha) (sensS hb) h
      · rw [eq] at h ⊢; exact slice_symm ih (arrS ha) (arrS hb) h
      · rw [eq] at h ⊢; exact maps_symm ih (mapS ha).2 (mapS hb).2 (mapS ha).1 (mapS hb).1 h
      · rw [eq, Bool.and_eq_true] at h ⊢
        exact ⟨ih.symm _ _ (entS ha).1 (entS hb).1 h.1, ih.symm _ _ (entS ha).2 (entS hb).2 h.2⟩
    · intro a b c ha hb hc h h'
      cases a <;> cases b <;> (try (simp [eq] at h; done)) <;> cases c <;> (try (simp [eq] at h'; done)) <;>
        (try (simp only [eq, beq_iff_eq] at h h' ⊢; exact h.trans h'))
      · rfl
      · rw [eq, F64.eq_iff] at h h' ⊢; exact ⟨h.1, h'.2.1, h.2.2.trans h'.2.2⟩
      · rw [eq] at h h' ⊢; exact ih.trans _ _ _ (sensS ha) (sensS hb) (sensS hc) h h'
      · rw [eq] at h h' ⊢; exact slice_trans ih (arrS ha) (arrS hb) (arrS hc) h h'
      · rw [eq] at h h' ⊢
        exact maps_trans ih (mapS ha).2 (mapS hb).2 (mapS hc).2 (mapS ha).1 (mapS hb).1 (mapS hc).1 h h'
      · rw [eq, Bool.and_eq_true] at h h' ⊢
        exact ⟨ih.trans _ _ _ (entS ha).1 (entS hb).1 (entS hc).1 h.1 h'.1,
          ih.trans _ _ _ (entS ha).2 (entS hb).2 (entS hc).2 h.2 h'.2⟩
    · intro a b ha hb h
      cases a <;> cases b <;> (try (simp [eq] at h; done)) <;> (try (simp only [eq, beq_iff_eq] at h; rw [h]))
      · rfl
      · rw [eq, F64.eq_iff] at h; simp only [hash]; exact F64.toInt_congr h.2.2
      · rw [eq] at h; simp only [hash]; rw [ih.hash _ _ (sensS ha) (sensS hb) h]
      · rw [eq] at h; simp only [hash]; rw [hashes_eq, hashes_eq, slice_hash ih (arrS ha) (arrS hb) h]
      · rw [eq] at h; simp only [hash]
        rw [maps_hash ih (mapS ha).2 (mapS hb).2 (mapS ha).1 (mapS hb).1 h]
      · rw [eq, Bool.and_eq_true] at h; simp only [hash]
        rw [ih.hash _ _ (entS ha).1 (entS hb).1 h.1, ih.hash _ _ (entS ha).2 (entS hb).2 h.2]

theorem laws : Laws WF where
  refl a ha := (laws_upto (sizeOf a + 1)).refl a ⟨ha, by omega⟩
  symm a b ha hb := (laws_upto (sizeOf a + sizeOf b + 1)).symm a b ⟨ha, by omega⟩ ⟨hb, by omega⟩
  trans a b c ha hb hc := (laws_upto (sizeOf a + sizeOf b + sizeOf c + 1)).trans a b c ⟨ha, by omega⟩ ⟨hb, by omega⟩
    ⟨hc, by omega⟩
  hash a b ha hb := (laws_upto (sizeOf a + sizeOf b + 1)).hash a b ⟨ha, by omega⟩ ⟨hb, by omega⟩

end Verif.Value
