import Verif.Goarg.Spec
import Verif.Types.InstHas
/-!
# What the type assertions see of a Go value
-/
set_option autoImplicit false
set_option linter.unusedVariables false
set_option linter.unusedSimpArgs false
set_option linter.unusedSectionVars false
namespace Verif.Goarg
open Verif.Value Verif.Reflect Verif.Types

variable {E : Reflect.Env} {T : Types.Env}

/-- What a Go value becomes, and how it looks -/
theorem direct_cases {g : Option GV} {v : Val} (h : valueOf E (.go g) = .ok v) (hd : Direct (.go g)) :
    (g = none ∧ v = .nil) ∨ (∃ b, g = some (.bool b) ∧ v = .bool b) ∨
    (∃ k n, g = some (.int k n) ∧ ¬((k = .uint ∨ k = .uint64) ∧ n = 2 ^ 64 - 1) ∧ v = .int (BitVec.ofInt 64 n)) ∨
    (∃ f, g = some (.float64 f) ∧ v = .float f) ∨ (∃ f, g = some (.float32 f) ∧ v = .float (E.widen f)) ∨
    (∃ s, g = some (.string s) ∧ v = .str s) ∨ (∃ t, g = some (.time t) ∧ v = .time t) ∨
    (∃ s, g = some (.ptr .regexp (some (.regexp s))) ∧ v = .regexp s) ∨
    (g = some (.slice (.int .uint8) none) ∧ v = .bin []) ∨
    (∃ gs, g = some (.slice (.int .uint8) (some gs)) ∧ v = .bin (gs.map byte)) ∨
    (∃ e o vs, e ≠ .int .uint8 ∧ g = some (.slice e o) ∧ v = .arr vs) ∨
    (∃ k t o es, g = some (.map k t o) ∧ v = .map es) := by
  rcases g with _ | g
  · left; simp_all [valueOf]
  cases g with
  | bool b => simp_all [valueOf, fromReflected]
  | int k n =>
    simp only [valueOf, fromReflected, ofInt] at h
    split at h
    · cases h
    · rename_i hn
      injection h with h
      refine .inr (.inr (.inl ⟨k, n, rfl, hn, h.symm⟩))
  | float32 f => simp_all [valueOf, fromReflected]
  | float64 f => simp_all [valueOf, fromReflected]
  | string s => simp_all [valueOf, fromReflected]
  | time t => simp_all [valueOf, fromReflected]
  | regexp s => simp [valueOf, fromReflected] at h
  | slice e o =>
    cases o with
    | none =>
      rcases hd with rfl | rfl | rfl
      · simp_all [valueOf]
      all_goals
        simp only [valueOf, Except.ok.injEq] at h
        refine .inr (.inr (.inr (.inr (.inr (.inr (.inr (.inr (.inr (.inr (.inl ⟨_, none, [], by simp, rfl, h.symm⟩))))))))))
    | some gs =>
      have h' : fromReflected E (.slice e (some gs)) = .ok v := by simpa [valueOf] using h
      rw [fromReflected] at h'
      by_cases he : e = .int .uint8
      · subst he
        simp at h'
        simp [h'.symm]
      · rw [if_neg he] at h'
        cases hf : fromAll E (e == .value .any) gs with
        | error x => simp [hf, Except.map] at h'
        | ok vs =>
          simp [hf, Except.map] at h'
          refine .inr (.inr (.inr (.inr (.inr (.inr (.inr (.inr (.inr (.inr (.inl ⟨e, some gs, vs, he, rfl, h'.symm⟩))))))))))
  | map k t o =>
    cases o with
    | none => cases hd
    | some es =>
      have h' : fromReflected E (.map k t (some es)) = .ok v := by simpa [valueOf] using h
      rw [fromReflected] at h'
      cases hf : fromEntries E es with
      | error x => simp [hf, Except.map] at h'
      | ok vs =>
        simp [hf, Except.map] at h'
        refine .inr (.inr (.inr (.inr (.inr (.inr (.inr (.inr (.inr (.inr (.inr ⟨k, t, some es, vs, rfl, h'.symm⟩))))))))))
  | ptr e o =>
    cases o with
    | none => cases e <;> simp_all [Direct, valueOf]
    | some g =>
      cases e <;> try cases hd
      cases g <;> simp_all [valueOf, fromReflected, regexpOf]
  | iface o => cases hd
  | value k o => cases hd

theorem toBin_slice {e : GT} (o : Option (List GV)) (he : e ≠ .int .uint8) : toBin (.go (some (.slice e o))) = none := by
  unfold toBin
  split <;> simp_all

/-- The parts of a value -/
@[simp] def asInt : Val → Option (BitVec 64)
  | .int i => some i
  | _ => none

@[simp] def asFloat : Val → Option F64
  | .float f => some f
  | _ => none

@[simp] def asStr : Val → Option Str
  | .str s => some s
  | _ => none

@[simp] def asBin : Val → Option (List UInt8)
  | .bin b => some b
  | _ => none

@[simp] def nilVal : Val → Bool
  | .nil => true
  | _ => false

@[simp] def boolVal : Val → Bool
  | .bool _ => true
  | _ => false

@[simp] def rxVal : Val → Bool
  | .regexp _ => true
  | _ => false

@[simp] def timeVal : Val → Bool
  | .time _ => true
  | _ => false

/-- What the type assertions see is what the value is. -/
structure Views (E : Reflect.Env) (g : Option GV) (v : Val) : Prop where
  int : toInt (.go g) = .ok (asInt v)
  float : toFloat E (.go g) = asFloat v
  str : toStr (.go g) = asStr v
  bin : toBin (.go g) = asBin v
  nil : isNil (.go g) = nilVal v
  goBool : isBool g = boolVal v
  goInt : isInt g = (asInt v).isSome
  goRx : isRegexp g = rxVal v
  goTime : isTime g = timeVal v
  sens : ∀ w, v ≠ .sens w

theorem views {g : Option GV} {v : Val} (h : valueOf E (.go g) = .ok v) (hd : Direct (.go g)) : Views E g v := by
  rcases direct_cases h hd with ⟨rfl, rfl⟩ | ⟨b, rfl, rfl⟩ | ⟨k, n, rfl, hn, rfl⟩ | ⟨f, rfl, rfl⟩ | ⟨f, rfl, rfl⟩ | ⟨s, rfl, rfl⟩ | ⟨t, rfl, rfl⟩ |
    ⟨s, rfl, rfl⟩ | ⟨rfl, rfl⟩ | ⟨gs, rfl, rfl⟩ | ⟨e, o, vs, he, rfl, rfl⟩ | ⟨k, t, o, es, rfl, rfl⟩
  case inr.inr.inl =>
    constructor <;> first | rfl | (intro w; simp; done) | (simp only [toInt]; rw [if_neg hn]; rfl)
  case inr.inr.inr.inr.inr.inr.inr.inr.inr.inr.inl =>
    constructor <;> first | rfl | (intro w; simp; done) | (rw [toBin_slice o he]; rfl)
  all_goals constructor <;> first | rfl | (intro w; simp; done)

theorem equalsArg_go {g : Option GV} {v : Val} (h : valueOf E (.go g) = .ok v) (hd : Direct (.go g)) (a : Val) :
    equalsArg E a (.go g) = .ok (eq a v) := by
  have hv := views h hd
  cases a with
  | nil => simp only [equalsArg, hv.nil]; cases v <;> rfl
  | int i => simp only [equalsArg, hv.int]; cases v <;> rfl
  | float i => simp only [equalsArg, hv.float]; cases v <;> rfl
  | str i => simp only [equalsArg, hv.str]; cases v <;> rfl
  | bin i => simp only [equalsArg, hv.bin]; cases v <;> rfl
  | _ =>
    have h0 := h
    rcases direct_cases h hd with ⟨rfl, rfl⟩ | ⟨b, rfl, rfl⟩ | ⟨k, n, rfl, hn, rfl⟩ | ⟨f, rfl, rfl⟩ | ⟨f, rfl, rfl⟩ | ⟨s, rfl, rfl⟩ | ⟨t, rfl, rfl⟩ |
      ⟨s, rfl, rfl⟩ | ⟨rfl, rfl⟩ | ⟨gs, rfl, rfl⟩ | ⟨e, o, vs, he, rfl, rfl⟩ | ⟨k, t, o, es, rfl, rfl⟩ <;>
    first
    | (simp [equalsArg, eq]; done)
    | (simp only [equalsArg, h0]; done)

theorem cmpArg_go {g : Option GV} {v : Val} (h : valueOf E (.go g) = .ok v) (hd : Direct (.go g)) (a : Val)
    (hb : ∀ b, a = .bool b → ∀ c, v ≠ .bool c ∧ v ≠ .nil) (hs : ∀ s, a = .str s → v ≠ .nil) :
    cmpArg E a (.go g) = .ok (cmp a v) := by
  have hv := views h hd
  cases a with
  | nil => simp only [cmpArg, hv.nil]; cases v <;> simp [cmp]
  | bool b =>
    have := hb b rfl true
    have := hb b rfl false
    cases v with
    | bool c => cases c <;> simp_all
    | nil => simp_all
    | _ => simp [cmpArg, cmp]
  | int i => simp only [cmpArg, hv.int, hv.float, hv.nil]; cases v <;> simp [cmp]
  | float i => simp only [cmpArg, hv.int, hv.float, hv.nil]; cases v <;> simp [cmp]
  | str i =>
    have := hs i rfl
    simp only [cmpArg, hv.str]; cases v <;> simp_all [cmp]
  | bin i => simp only [cmpArg, hv.bin, hv.nil]; cases v <;> simp [cmp]
  | arr as => simp only [cmpArg, h]
  | _ => simp only [cmpArg]; cases v <;> simp [cmp]

theorem instTypeOf_go {g : Option GV} {v : Val} (h : valueOf E (.go g) = .ok v) (hd : Direct (.go g)) (o : Oid) (w : Val) :
    instTypeOf E g w = .ok (has0 T (typeOf o w) v) := by
  have hv := views h hd
  have he := equalsArg_go h hd
  have hs := hv.sens
  cases w with
  | sens w => cases v <;> simp_all [instTypeOf, typeOf, has0, hasP]
  | nil => simp only [instTypeOf, he]; cases v <;> simp [eq, typeOf, has0, hasP]
  | _ => simp [instTypeOf, he, typeOf, has0, hasP]

theorem allVals_go {g : Option GV} {v : Val} (h : valueOf E (.go g) = .ok v) (hd : Direct (.go g)) (o : Oid) (ws : List Val) :
    allVals E g ws = .ok ((typesOf o ws).all fun t => has0 T t v) := by
  induction ws with
  | nil => rfl
  | cons w ws ih =>
    rw [allVals, instTypeOf_go (T := T) h hd (.part o ws.length) w, typesOf, List.all_cons]
    cases has0 T (typeOf (.part o ws.length) w) v <;> simp [Except.bind, ih]

section
variable {g : Option GV} {v : Val} (h : valueOf E (.go g) = .ok v) (hd : Direct (.go g))
include h hd

theorem go_any (hc : Single v ∨ NoColl .any) : instGo T E g .any = .ok (has T .any v) := by simp [instGo, has, hasP]

theorem go_nilT (hc : Single v ∨ NoColl .nilT) : instGo T E g .nilT = .ok (has T .nilT v) := by simp only [instGo, (views h hd).nil]; cases v <;> rfl

theorem go_boolT (hc : Single v ∨ NoColl .boolT) : instGo T E g .boolT = .ok (has T .boolT v) := by simp only [instGo, (views h hd).goBool]; cases v <;> rfl

theorem go_intT (hc : Single v ∨ NoColl .intT) : instGo T E g .intT = .ok (has T .intT v) := by simp only [instGo, (views h hd).goInt]; cases v <;> rfl

theorem go_floatT (hc : Single v ∨ NoColl .floatT) : instGo T E g .floatT = .ok (has T .floatT v) := by simp only [instGo, (views h hd).float]; cases v <;> rfl

theorem go_strT (hc : Single v ∨ NoColl .strT) : instGo T E g .strT = .ok (has T .strT v) := by simp only [instGo, (views h hd).str]; cases v <;> rfl

theorem go_regexpT (hc : Single v ∨ NoColl .regexpT) : instGo T E g .regexpT = .ok (has T .regexpT v) := by simp only [instGo, (views h hd).goRx]; cases v <;> rfl

theorem go_timeT (hc : Single v ∨ NoColl .timeT) : instGo T E g .timeT = .ok (has T .timeT v) := by simp only [instGo, (views h hd).goTime]; cases v <;> rfl

theorem go_exact (w : Val) (hc : Single v ∨ NoColl (.exact w)) : instGo T E g (.exact w) = .ok (has T (.exact w) v) := by simp [instGo, equalsArg_go h hd, has, hasP]

theorem go_exactD (o : Oid) (w : Val) (hc : Single v ∨ NoColl (.exactD o w)) : instGo T E g (.exactD o w) = .ok (has T (.exactD o w) v) := by simp [instGo, equalsArg_go h hd, has, hasP]

theorem go_intRange (lo hi : BitVec 64) (b : Bool) (hc : Single v ∨ NoColl (.intRange lo hi b)) : instGo T E g (.intRange lo hi b) = .ok (has T (.intRange lo hi b) v) := by simp only [instGo, (views h hd).int]; cases v <;> rfl

theorem go_floatRange (lo hi : F64) (b : Bool) (hc : Single v ∨ NoColl (.floatRange lo hi b)) : instGo T E g (.floatRange lo hi b) = .ok (has T (.floatRange lo hi b) v) := by simp only [instGo, (views h hd).float]; cases v <;> rfl

theorem go_sizedStr (lo hi : Int) (hc : Single v ∨ NoColl (.sizedStr lo hi)) : instGo T E g (.sizedStr lo hi) = .ok (has T (.sizedStr lo hi) v) := by simp only [instGo, (views h hd).str]; cases v <;> rfl

theorem go_ciStr (s : Str) (hc : Single v ∨ NoColl (.ciStr s)) : instGo T E g (.ciStr s) = .ok (has T (.ciStr s) v) := by simp only [instGo, (views h hd).str]; cases v <;> rfl

theorem go_pattern (s : Str) (hc : Single v ∨ NoColl (.pattern s)) : instGo T E g (.pattern s) = .ok (has T (.pattern s) v) := by simp only [instGo, (views h hd).str]; cases v <;> rfl

theorem go_bin (lo hi : Int) (hc : Single v ∨ NoColl (.bin lo hi)) : instGo T E g (.bin lo hi) = .ok (has T (.bin lo hi) v) := by simp only [instGo, (views h hd).bin]; cases v <;> rfl

theorem go_arrT (hc : Single v ∨ NoColl .arrT) : instGo T E g .arrT = .ok (has T .arrT v) := by cases v <;> simp_all [instGo, has, hasP, Single, NoColl]

theorem go_mapT (hc : Single v ∨ NoColl .mapT) : instGo T E g .mapT = .ok (has T .mapT v) := by cases v <;> simp_all [instGo, has, hasP, Single, NoColl]

theorem go_sizedArr (o : Oid) (e : Ty) (lo hi : Int) (hc : Single v ∨ NoColl (.sizedArr o e lo hi)) : instGo T E g (.sizedArr o e lo hi) = .ok (has T (.sizedArr o e lo hi) v) := by cases v <;> simp_all [instGo, has, hasP, Single, NoColl]

theorem go_tuple (o : Oid) (ts : List Ty) (b : Bool) (hc : Single v ∨ NoColl (.tuple o ts b)) : instGo T E g (.tuple o ts b) = .ok (has T (.tuple o ts b) v) := by cases v <;> cases b <;> simp_all [instGo, has, hasP, Single, NoColl]

theorem go_sizedMap (o : Oid) (k e : Ty) (lo hi : Int) (hc : Single v ∨ NoColl (.sizedMap o k e lo hi)) : instGo T E g (.sizedMap o k e lo hi) = .ok (has T (.sizedMap o k e lo hi) v) := by cases v <;> simp_all [instGo, has, hasP, Single, NoColl]

theorem go_struct (o : Oid) (b : Bool) (fs : List (Val × Bool × Ty)) (hc : Single v ∨ NoColl (.struct o b fs)) : instGo T E g (.struct o b fs) = .ok (has T (.struct o b fs) v) := by cases v <;> simp_all [instGo, has, hasP, Single, NoColl]

theorem go_sens (o : Oid) (t : Ty) (hc : Single v ∨ NoColl (.sens o t)) : instGo T E g (.sens o t) = .ok (has T (.sens o t) v) := by have hs := (views h hd).sens; cases v <;> simp_all [instGo, has, hasP]

theorem go_metaT (t : Ty) (hc : Single v ∨ NoColl (.metaT t)) : instGo T E g (.metaT t) = .ok (has T (.metaT t) v) := by simp [instGo, has, hasP]

theorem go_metaMeta (hc : Single v ∨ NoColl .metaMeta) : instGo T E g .metaMeta = .ok (has T .metaMeta v) := by simp [instGo, has, hasP]

end

mutual
theorem instGo_has {g : Option GV} {v : Val} (h : valueOf E (.go g) = .ok v) (hd : Direct (.go g)) :
    (t : Ty) → Single v ∨ NoColl t → instGo T E g t = .ok (has T t v)
  | .any, hc => go_any h hd hc
  | .nilT, hc => go_nilT h hd hc
  | .boolT, hc => go_boolT h hd hc
  | .intT, hc => go_intT h hd hc
  | .floatT, hc => go_floatT h hd hc
  | .strT, hc => go_strT h hd hc
  | .regexpT, hc => go_regexpT h hd hc
  | .timeT, hc => go_timeT h hd hc
  | .exact w, hc => go_exact h hd w hc
  | .exactD o w, hc => go_exactD h hd o w hc
  | .intRange lo hi b, hc => go_intRange h hd lo hi b hc
  | .floatRange lo hi b, hc => go_floatRange h hd lo hi b hc
  | .sizedStr lo hi, hc => go_sizedStr h hd lo hi hc
  | .ciStr s, hc => go_ciStr h hd s hc
  | .pattern s, hc => go_pattern h hd s hc
  | .bin lo hi, hc => go_bin h hd lo hi hc
  | .arrT, hc => go_arrT h hd hc
  | .mapT, hc => go_mapT h hd hc
  | .sizedArr o e lo hi, hc => go_sizedArr h hd o e lo hi hc
  | .tuple o ts b, hc => go_tuple h hd o ts b hc
  | .sizedMap o k e lo hi, hc => go_sizedMap h hd o k e lo hi hc
  | .struct o b fs, hc => go_struct h hd o b fs hc
  | .sens o t, hc => go_sens h hd o t hc
  | .metaT t, hc => go_metaT h hd t hc
  | .metaMeta, hc => go_metaMeta h hd hc
  | .allOf o ts, hc => by
    rw [instGo, allGo_has h hd ts (by simpa [NoColl] using hc)]; simp [has, hasP]
  | .allOfVal o ws, _ => by rw [instGo, allVals_go (T := T) h hd o]; simp [has, hasP]
  | .anyOf o ts, hc => by
    rw [instGo, anyGo_has h hd ts (by simpa [NoColl] using hc)]; simp [has, hasP]
  | .oneOf o ts, hc => by
    rw [instGo, oneGo_has h hd ts (by simpa [NoColl] using hc)]; simp [has, hasP]
  | .not t, hc => by
    rw [instGo, instGo_has h hd t (by simpa [NoColl] using hc)]; simp [has, hasP, Except.map]

theorem allGo_has {g : Option GV} {v : Val} (h : valueOf E (.go g) = .ok v) (hd : Direct (.go g)) :
    (ts : List Ty) → Single v ∨ NoColls ts →
    allGo T E g ts = .ok (hasAll T (fun o vs v => (typesOf o vs).all fun t => has0 T t v) ts v)
  | [], _ => by simp [allGo, hasAll]
  | t :: ts, hc => by
    rw [allGo, instGo_has h hd t (hc.imp id And.left), allGo_has h hd ts (hc.imp id And.right), hasAll]
    show (if has T t v = true then _ else _) = Except.ok (has T t v && _)
    cases has T t v <;> simp

theorem anyGo_has {g : Option GV} {v : Val} (h : valueOf E (.go g) = .ok v) (hd : Direct (.go g)) :
    (ts : List Ty) → Single v ∨ NoColls ts →
    anyGo T E g ts = .ok (hasAny T (fun o vs v => (typesOf o vs).all fun t => has0 T t v) ts v)
  | [], _ => by simp [anyGo, hasAny]
  | t :: ts, hc => by
    rw [anyGo, instGo_has h hd t (hc.imp id And.left), anyGo_has h hd ts (hc.imp id And.right), hasAny]
    show (if has T t v = true then _ else _) = Except.ok (has T t v || _)
    cases has T t v <;> simp

theorem oneGo_has {g : Option GV} {v : Val} (h : valueOf E (.go g) = .ok v) (hd : Direct (.go g)) :
    (ts : List Ty) → Single v ∨ NoColls ts → ∀ f : Bool,
    oneGo T E g f ts =
      .ok ((if f then 1 else 0) + hasCount T (fun o vs v => (typesOf o vs).all fun t => has0 T t v) ts v == 1)
  | [], _, f => by cases f <;> simp [oneGo, hasCount]
  | t :: ts, hc, f => by
    have ih := oneGo_has h hd ts (hc.imp id And.right)
    rw [oneGo, instGo_has h hd t (hc.imp id And.left), hasCount]
    show (if has T t v = true then _ else _) = Except.ok (_ + ((if has T t v = true then 1 else 0) + _) == 1)
    cases has T t v <;> cases f <;> simp [ih]
end

end Verif.Goarg
