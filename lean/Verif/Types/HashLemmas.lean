import Verif.Types.Hash
import Verif.Types.EqSound
/-!
# Equal types have equal hash codes, where they do
-/
set_option autoImplicit false
set_option linter.unusedVariables false
set_option linter.unusedSimpArgs false
set_option linter.unnecessarySeqFocus false
namespace Verif.Types
open Verif.Value

theorem tyHashes_eq (ts : List Ty) : tyHashes ts = ts.map tyHash := by
  induction ts with
  | nil => rfl
  | cons t ts ih => simp [tyHashes, ih]

theorem tyHashFields_eq (fs : List (Val × Bool × Ty)) : tyHashFields fs = fs.map fun f => tyHash f.2.2 := by
  induction fs with
  | nil => rfl
  | cons f fs ih => obtain ⟨k, r, t⟩ := f; simp [tyHashFields, ih]

theorem forall₂_map_eq {α β γ : Type} {f : α → γ} {g : β → γ} {as : List α} {bs : List β} (h : List.Forall₂ (fun a b => f a = g b) as bs) :
    as.map f = bs.map g := by
  induction h with
  | nil => rfl
  | cons h _ ih => simp [h, ih]

theorem exactHash_congr {v w : Val} (hv : Value.WF v) (hw : Value.WF w) (h : eq v w = true) : exactHash v = exactHash w := by
  rw [exactHash, exactHash, laws.hash v w hv hw h]
  congr 1
  cases v <;> cases w <;> simp only [eq, Bool.false_eq_true] at h <;> rfl

/-- Where equal types have equal hash codes: no logical operation, no tuple of exact types (which the constructor makes an exact
type, but for the empty one), no sensitive values in exact types. -/
def hashNode : Ty → Prop
  | .allOf .. | .allOfVal .. | .anyOf .. | .oneOf .. => False
  | .tuple _ ts var => var = true ∨ ∃ t ∈ ts, t.isExact = false
  | .exactD _ v => NoSens v
  | _ => True

/-- A type object that occurs in both is the same type in both. -/
def Agree (a b : Ty) : Prop := Every (fun x => Every (fun y => ∀ o, x.deep? = some o → y.deep? = some o → x = y) b) a

theorem Every.all_part {p : Ty → Ty → Prop} {a b c d : Ty} (h : Every (fun x => Every (p x) b) a) (hc : c ∈ parts a) (hd : d ∈ parts b) :
    Every (fun x => Every (p x) d) c :=
  (h.part hc).mono fun _ h => h.part hd

structure HashCond (a : Ty) : Prop where
  acyc : a.Acyc
  ok : a.Ok
  made : Made a
  every : Every hashNode a

theorem HashCond.part {a c : Ty} (h : HashCond a) (hc : c ∈ parts a) : HashCond c :=
  ⟨part_Acyc h.acyc hc, part_Ok h.ok hc, Every.part h.made hc, h.every.part hc⟩

theorem agree_leaf {a b : Ty} (ha : Made a) {o : Oid} (hp : parts b = []) (hb : ∀ o', b.deep? = some o' → o' = o) (ho : ∀ n, o ≠ .user n) :
    Agree a b := by
  refine Every.mono (p := fun t => ∀ o, t.deep? = some o → ∃ n, o = .user n) (fun x hx => ?_) ha
  refine .mk (fun o' h1 h2 => ?_) (by simp [hp])
  obtain ⟨n, rfl⟩ := hx o' h1
  exact absurd (hb _ h2).symm (ho n)

theorem occ_of_deep {a : Ty} {o : Oid} (h : a.deep? = some o) : a.occ o := by
  cases a <;> simp only [Ty.deep?, Option.some.injEq, reduceCtorEq] at h <;> subst h <;> simp [Ty.occ, Below.refl]

theorem part_new {a c : Ty} (ha : a.Acyc) {o : Oid} (h : a.deep? = some o) (hc : c ∈ parts a) : ¬ c.occ o := by
  cases a <;> simp only [Ty.deep?, Option.some.injEq, reduceCtorEq] at h <;> subst h <;> rw [Ty.Acyc] at ha <;>
    simp only [parts, List.not_mem_nil, List.mem_cons, or_false, List.mem_map] at hc
  case sizedArr => subst hc; exact ha.1
  case tuple => exact fun h => ha.1 (occs_iff.2 ⟨c, hc, h⟩)
  case sizedMap => rcases hc with rfl | rfl; exact ha.1; exact ha.2.1
  case struct => obtain ⟨f, hf, rfl⟩ := hc; exact fun h => ha.1 (occFields_iff.2 ⟨f, hf, h⟩)
  case allOf => exact fun h => ha.1 (occs_iff.2 ⟨c, hc, h⟩)
  case anyOf => exact fun h => ha.1 (occs_iff.2 ⟨c, hc, h⟩)
  case oneOf => exact fun h => ha.1 (occs_iff.2 ⟨c, hc, h⟩)
  case sens => subst hc; exact ha.1

theorem floatLt_left {a b : F64} (h : Value.F64.eq a b = true) (c : F64) : Value.F64.lt a c = Value.F64.lt b c := by
  obtain ⟨h1, h2, h3⟩ := (F64.eq_iff _ _).1 h
  simp only [Value.F64.lt, h1, h2, h3]

theorem floatLt_right {a b : F64} (h : Value.F64.eq a b = true) (c : F64) : Value.F64.lt c a = Value.F64.lt c b := by
  obtain ⟨h1, h2, h3⟩ := (F64.eq_iff _ _).1 h
  simp only [Value.F64.lt, h1, h2, h3]

/-- What is proved about equal types -/
def HashEq (a b : Ty) : Prop := tyHash a = tyHash b ∧ (b.isExact = true → a.isExact = true) ∧ a.isAny = b.isAny

theorem typeOf_isExact (o : Oid) {v : Val} (h : NoSens v) : (typeOf o v).isExact = true := by
  rcases typeOf_cases o h.ne with e | ⟨e, _⟩ | ⟨e, _⟩ <;> rw [e] <;> rfl

theorem typeOf_hashNode (o : Oid) {v : Val} (h : NoSens v) : Every hashNode (typeOf o v) := by
  rcases typeOf_cases o h.ne with e | ⟨e, _⟩ | ⟨e, _⟩ <;> rw [e] <;> exact .mk (by simp [hashNode, h]) (by simp [parts])

theorem agree_typeOf {t : Ty} (ht : Made t) (o : Oid) (k : Nat) {v : Val} (h : NoSens v) : Agree t (typeOf (.part o k) v) := by
  refine agree_leaf (o := .part o k) ht (typeOf_parts _ h.ne) (fun o' ho => ?_) (by simp)
  rcases typeOf_cases (.part o k) h.ne with e | ⟨e, _⟩ | ⟨e, _⟩ <;> rw [e] at ho <;> simp [Ty.deep?] at ho
  exact ho.symm

theorem tyEq_hash : ∀ (n : Nat) (seen : List Oid) (a b : Ty), HashCond a → b.Ok → Every hashNode b → Agree a b → (∀ o ∈ seen, ¬ a.occ o) →
    tyEq n seen a b = true → HashEq a b
  | 0, _, _, _, _, _, _, _, _, h => by simp [tyEq] at h
  | n + 1, seen, a, b, ha, ob, hb, hab, hseen, h => by
    rw [tyEq] at h
    split at h
    · have ih : ∀ c ∈ parts a, ∀ d ∈ parts b, tyEq n [] c d = true → HashEq c d := fun c hc d hd =>
        tyEq_hash n [] c d (ha.part hc) (part_Ok ob hd) (hb.part hd) (Every.all_part hab hc hd) (by simp)
      have oa := ha.ok
      cases a <;> cases b <;> simp only [leafEq, Bool.false_eq_true] at h <;>
        (refine ⟨?_, ?_, rfl⟩) <;> (try exact rfl) <;> (try exact id)
      case h_1.exact.exact.refine_1 v w =>
        rw [Ty.Ok] at oa ob
        exact exactHash_congr oa.2 ob.2 h
      case h_1.intRange.intRange.refine_1 =>
        simp only [Bool.and_eq_true, beq_iff_eq] at h
        obtain ⟨⟨rfl, rfl⟩, rfl⟩ := h
        rfl
      case h_1.floatRange.floatRange.refine_1 a1 b1 i1 a2 b2 i2 =>
        simp only [Bool.and_eq_true, beq_iff_eq] at h
        obtain ⟨⟨h1, h2⟩, rfl⟩ := h
        simp only [tyHash]
        rw [floatLt_left h2, floatLt_right h1, F64.toInt_congr ((F64.eq_iff _ _).1 h1).2.2, F64.toInt_congr ((F64.eq_iff _ _).1 h2).2.2]
      case h_1.sizedStr.sizedStr.refine_1 =>
        simp only [Bool.and_eq_true, beq_iff_eq] at h
        obtain ⟨rfl, rfl⟩ := h
        rfl
      case h_1.ciStr.ciStr.refine_1 => simp only [beq_iff_eq] at h; simp only [tyHash, h]
      case h_1.pattern.pattern.refine_1 => simp only [beq_iff_eq] at h; simp only [tyHash, h]
      case h_1.bin.bin.refine_1 =>
        simp only [Bool.and_eq_true, beq_iff_eq] at h
        obtain ⟨rfl, rfl⟩ := h
        rfl
      case h_1.not.not.refine_1 => simp only [tyHash]; rw [(ih _ (by simp [parts]) _ (by simp [parts]) h).1]
      case h_1.metaT.metaT.refine_1 => simp only [tyHash]; rw [(ih _ (by simp [parts]) _ (by simp [parts]) h).1]
    · rename_i o ho
      split at h
      · rename_i ho'
        obtain rfl := hab.here.here o ho ho'
        exact ⟨rfl, id, rfl⟩
      · split at h
        · rename_i hm
          exact absurd (occ_of_deep ho) (hseen o hm)
        · have ih : ∀ c ∈ parts a, ∀ d ∈ parts b, tyEq n (o :: seen) c d = true → HashEq c d := fun c hc d hd =>
            tyEq_hash n (o :: seen) c d (ha.part hc) (part_Ok ob hd) (hb.part hd) (Every.all_part hab hc hd) fun x hx => by
              rcases List.mem_cons.1 hx with rfl | hx
              · exact part_new ha.acyc ho hc
              · exact fun h => hseen x hx (part_occ hc h)
          have oa := ha.ok
          have hx : ∀ o1 ts var o2 v, a = .tuple o1 ts var → b = .exactD o2 v → False := by
            rintro o1 ts var o2 v rfl rfl
            cases v with
            | arr vs =>
              simp only [deepEq, Bool.and_eq_true, Bool.not_eq_true', zipAll_iff] at h
              obtain ⟨rfl, h⟩ := h
              have hn := ha.every.here
              simp only [hashNode, Bool.false_eq_true, false_or] at hn
              obtain ⟨t, ht, hx⟩ := hn
              have hs : NoSensAll vs := by simpa [hashNode, NoSens] using hb.here
              have hw : WFs vs := by
                rw [Ty.Ok] at ob; simpa [Value.WF] using ob.2
              obtain ⟨u, hu, he⟩ := forall₂_mem h ht
              obtain ⟨k, v, hv, rfl⟩ := typesOf_mem hu
              have hnv := (NoSensAll_iff.1 hs v hv)
              have hwv := (WFs_iff _).1 hw v hv
              have := tyEq_hash n _ t _ (ha.part ht) (typeOf_Ok _ hwv) (typeOf_hashNode _ hnv) (agree_typeOf (Every.part ha.made ht) _ k hnv)
                (fun x hx => by
                  rcases List.mem_cons.1 hx with rfl | hx
                  · exact part_new ha.acyc ho ht
                  · exact fun h => hseen x hx (part_occ ht h)) he
              rw [this.2.1 (typeOf_isExact _ hnv)] at hx
              cases hx
            | _ => simp [deepEq] at h
          cases a <;> cases b <;> simp only [deepEq, Bool.false_eq_true] at h <;>
            (try exact absurd (hx _ _ _ _ _ rfl rfl) id) <;> (refine ⟨?_, ?_, rfl⟩) <;> (try exact id)
          case h_2.isFalse.isFalse.exactD.exactD.refine_1 v _ w =>
            rw [Ty.Ok] at oa ob
            exact exactHash_congr oa.2 ob.2 h
          case h_2.isFalse.isFalse.sizedArr.sizedArr.refine_1 =>
            simp only [Bool.and_eq_true, beq_iff_eq] at h
            obtain ⟨⟨rfl, rfl⟩, h⟩ := h
            have := ih _ (by simp [parts]) _ (by simp [parts]) h
            simp only [tyHash]
            rw [this.1, this.2.2]
          case h_2.isFalse.isFalse.tuple.tuple.refine_1 =>
            simp only [Bool.and_eq_true, beq_iff_eq, zipAll_iff] at h
            obtain ⟨rfl, h⟩ := h
            simp only [tyHash]
            rw [tyHashes_eq, tyHashes_eq, forall₂_map_eq (forall₂_imp_mem h fun c hc d hd h => (ih c hc d hd h).1)]
          case h_2.isFalse.isFalse.sizedMap.sizedMap.refine_1 =>
            simp only [Bool.and_eq_true, beq_iff_eq] at h
            obtain ⟨⟨⟨rfl, rfl⟩, h1⟩, h2⟩ := h
            have e1 := ih _ (by simp [parts]) _ (by simp [parts]) h1
            have e2 := ih _ (by simp [parts]) _ (by simp [parts]) h2
            simp only [tyHash]
            rw [e1.1, e1.2.2, e2.2.2]
          case h_2.isFalse.isFalse.struct.struct.refine_1 add fs o2 add' fs' _ =>
            simp only [Bool.and_eq_true, beq_iff_eq, zipAll_iff] at h
            obtain ⟨⟨⟨rfl, h1⟩, h2⟩, h3⟩ := h
            rw [Ty.Ok, OkFields_iff] at oa ob
            have e1 : fs.map (fun f => f.2.1) = fs'.map (fun f => f.2.1) := forall₂_map_eq h1
            have e2 : fs.map (fun f => exactHash f.1) = fs'.map (fun f => exactHash f.1) :=
              forall₂_map_eq (forall₂_imp_mem h2 fun c hc d hd h => exactHash_congr (oa c hc).2.1 (ob d hd).2.1 h)
            have e3 : fs.map (fun f => tyHash f.2.2) = fs'.map (fun f => tyHash f.2.2) :=
              forall₂_map_eq (forall₂_imp_mem h3 fun c hc d hd h =>
                (ih _ (List.mem_map.2 ⟨c, hc, rfl⟩) _ (List.mem_map.2 ⟨d, hd, rfl⟩) h).1)
            simp only [tyHash]
            rw [tyHashFields_eq, tyHashFields_eq, e1, e2, e3]
          case h_2.isFalse.isFalse.sens.sens.refine_1 => simp only [tyHash]; rw [(ih _ (by simp [parts]) _ (by simp [parts]) h).1]
          case h_2.isFalse.isFalse.allOf.allOf.refine_1 => exact absurd hb.here (by simp [hashNode])
          case h_2.isFalse.isFalse.allOf.allOfVal.refine_1 => exact absurd hb.here (by simp [hashNode])
          case h_2.isFalse.isFalse.allOfVal.allOf.refine_1 => exact absurd hb.here (by simp [hashNode])
          case h_2.isFalse.isFalse.allOfVal.allOfVal.refine_1 => exact absurd hb.here (by simp [hashNode])
          case h_2.isFalse.isFalse.anyOf.anyOf.refine_1 => exact absurd hb.here (by simp [hashNode])
          case h_2.isFalse.isFalse.oneOf.oneOf.refine_1 => exact absurd hb.here (by simp [hashNode])

end Verif.Types
