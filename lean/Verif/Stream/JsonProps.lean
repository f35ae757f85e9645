import Verif.Stream.JsonRead
import Verif.Stream.Props
/-!
# C47, C48: JSON
-/
set_option autoImplicit false
set_option linter.unusedVariables false
namespace Verif.Stream
open Verif.Value (Str)

/-! ## C47 -/

theorem level_json (o : Options) : level o jsonConsumer ≤ 1 := by
  unfold level
  split
  · omega
  · rename_i h
    have : ¬o.dedup ≥ 2 := fun h' => h ⟨h', rfl⟩
    omega

/-- **C47** (partial) What is written is one JSON value (`JVal`, the grammar of RFC 8259), for every value, de-duplication level, dialect and
kind of sharing, also for cyclic values and for those that look like references.  Partial: if there is an alias map then it knows the names
of all types, see `C47_violated_alias`. -/
theorem C47_grammar_partial (o : Options) (E : JEnv) (h : Heap) (fuel : Nat) (r : Ref) (ts : List JTok)
    (hn : ∀ p x names, h p = some (.typ x) → o.names = some names → names x ≠ none) (hm : marshal o E h fuel r = .ok ts) : JVal ts := by
  unfold marshal at hm
  cases hs : stream o jsonConsumer h fuel r with
  | panic => simp [hs] at hm
  | deep => simp [hs] at hm
  | ok e =>
    simp only [hs, jenc_eq] at hm
    cases ht : jtoks E e with
    | none => simp [ht] at hm
    | some t =>
      simp only [ht, Option.map_some, pre, List.nil_append] at hm
      cases hm
      obtain ⟨x, h1, rfl⟩ := Out.map_ok hs
      have hf : Fine (fun _ => True) (fun _ => True) (fun _ => True) x.2 :=
        emit_fine (o := o) (h := h) ⟨fun _ _ _ _ _ => trivial, fun _ _ _ => trivial, fun _ _ _ => trivial, fun _ _ _ => trivial,
          fun _ _ _ _ _ _ _ => trivial, fun _ _ => trivial, fun _ _ _ _ _ _ => trivial, trivial⟩ hn (fun _ _ _ _ _ => trivial) fuel _ r _ x.1 x.2
          (level_json o) (.inr fun _ => trivial) (fun _ _ => trivial) h1
      exact jtoks_val x.2 _ hf ht

/-- **C47** What `MarshalJSON`, which has no alias map, returns is one JSON value. -/
theorem C47_marshalJSON (o : Options) (E : JEnv) (h : Heap) (fuel : Nat) (r : Ref) (ts : List JTok) (hn : o.names = none)
    (hm : marshal o E h fuel r = .ok ts) : JVal ts :=
  C47_grammar_partial o E h fuel r ts (fun _ _ names _ e => by rw [hn] at e; cases e) hm

/-- Floats written as `1.5`, for the examples -/
def exEnv : JEnv := { floatText := fun _ => some (txt "1.5"), parseFloat := fun _ => 0x3FF8000000000000 }

example : marshal (exOptions 1) exEnv cyHeap 9 (.obj 0) = .ok
    [.lbrack, .lbrace, .str (txt "up"), .colon, .lbrace, .str (txt "__ref"), .colon, .num (txt "0"), .rbrace, .comma,
      .str (txt "me"), .colon, .lbrace, .str (txt "__ref"), .colon, .num (txt "1"), .rbrace, .rbrace, .comma, .str (txt "x"), .comma,
      .lbrace, .str (txt "__ref"), .colon, .num (txt "1"), .rbrace, .rbrack] := by decide +kernel

theorem members_head : ∀ {ts : List JTok}, JMembers ts → ∃ k r, ts = .str k :: .colon :: r
  | _, .one k v _ => ⟨k, v, rfl⟩
  | _, .more ts k v h _ => by
    obtain ⟨k', r, rfl⟩ := members_head h
    exact ⟨k', _, rfl⟩

/-- **C47** does not hold with an alias map that does not know a type: the value is missing. -/
theorem C47_violated_alias :
    marshal { exOptions 1 with names := some fun _ => none } exEnv (fun _ => some (.typ (txt "int"))) 9 (.obj 0)
      = .ok [.lbrace, .str (txt "__type"), .rbrace]
    ∧ ¬JVal [.lbrace, .str (txt "__type"), .rbrace] := by
  refine ⟨by decide +kernel, ?_⟩
  intro h
  generalize hts : [JTok.lbrace, .str (txt "__type"), .rbrace] = ts at h
  cases h with
  | scalar t h => simp at hts
  | arr0 => simp at hts
  | arr ts h => simp at hts
  | obj0 => simp at hts
  | obj ts h =>
    obtain ⟨k, r, rfl⟩ := members_head h
    simp at hts

/-! ## C48 -/

mutual
/-- No item was replaced by a reference. -/
def noRefs : Ev → Bool
  | .ref _ => false
  | .arr es => noRefsAll es
  | .map es => noRefsAll es
  | _ => true
def noRefsAll : List Ev → Bool
  | [] => true
  | e :: es => noRefs e && noRefsAll es
end

mutual
theorem fine_noRefs {PA : Atom → Prop} {PF : Str → Prop} {PR PR' : Int → Prop} : ∀ e : Ev, noRefs e = true → Fine PA PR PF e → Fine PA PR' PF e
  | .add a, hr, hf => by simpa only [Fine] using hf
  | .addBin a, hr, hf => by simp [Fine] at hf
  | .addTime a, hr, hf => by simp [Fine] at hf
  | .ref a, hr, hf => by simp [noRefs] at hr
  | .arr es, hr, hf => by
    simp only [noRefs] at hr
    simp only [Fine] at hf ⊢
    exact fineAll_noRefs es hr hf
  | .map es, hr, hf => by
    simp only [noRefs] at hr
    simp only [Fine] at hf ⊢
    exact ⟨fineMap_noRefs es hr hf.1, hf.2⟩
theorem fineAll_noRefs {PA : Atom → Prop} {PF : Str → Prop} {PR PR' : Int → Prop} : ∀ es : List Ev, noRefsAll es = true → FineAll PA PR PF es →
    FineAll PA PR' PF es
  | [], hr, hf => by simp only [FineAll]
  | e :: es, hr, hf => by
    simp only [noRefsAll, Bool.and_eq_true] at hr
    simp only [FineAll] at hf ⊢
    exact ⟨fine_noRefs e hr.1 hf.1, fineAll_noRefs es hr.2 hf.2⟩
theorem fineMap_noRefs {PA : Atom → Prop} {PF : Str → Prop} {PR PR' : Int → Prop} : ∀ es : List Ev, noRefsAll es = true → FineMap PA PR PF es →
    FineMap PA PR' PF es
  | [], hr, hf => by simp only [FineMap]
  | .add (.str x) :: e :: es, hr, hf => by
    simp only [noRefsAll, Bool.and_eq_true] at hr
    simp only [FineMap] at hf ⊢
    exact ⟨hf.1, fine_noRefs e hr.2.1 hf.2.1, fineMap_noRefs es hr.2.2 hf.2.2⟩
  | [.add (.str s)], _, hf => by simp [FineMap] at hf
  | .add .nil :: _, _, hf => by simp [FineMap] at hf
  | .add (.bool _) :: _, _, hf => by simp [FineMap] at hf
  | .add (.int _) :: _, _, hf => by simp [FineMap] at hf
  | .add (.float _) :: _, _, hf => by simp [FineMap] at hf
  | .addBin _ :: _, _, hf => by simp [FineMap] at hf
  | .addTime _ :: _, _, hf => by simp [FineMap] at hf
  | .ref _ :: _, _, hf => by simp [FineMap] at hf
  | .arr _ :: _, _, hf => by simp [FineMap] at hf
  | .map _ :: _, _, hf => by simp [FineMap] at hf
end

/-- What JSON can carry: texts are UTF-8, floats are written as numbers that are not integers and read back, and the first key of a map is
not that of references. -/
structure JsonSafe (o : Options) (E : JEnv) (h : Heap) (r : Ref) : Prop where
  text : ∀ s, (r = .atom (.str s) ∨ ∃ p x, h p = some x ∧ Ref.atom (.str s) ∈ slots x) → Valid s
  float : ∀ f, (r = .atom (.float f) ∨ ∃ p x, h p = some x ∧ Ref.atom (.float f) ∈ slots x) →
    ∃ x, E.floatText f = some x ∧ int64 x = none ∧ E.parseFloat x = f
  time : ∀ p t, h p = some (.time t) → Valid (o.timeText t)
  typ : ∀ p t, h p = some (.typ t) → Valid t
  name : ∀ p t names n, h p = some (.typ t) → o.names = some names → names t = some n → Valid n
  first : ∀ p s v es, h p = some (.map ((.atom (.str s), v) :: es)) → s ≠ o.dialect.refKey

theorem safe_atoms {o : Options} {E : JEnv} {h : Heap} {r : Ref} (hd : o.dialect = dgoDialect ∨ o.dialect = pcoreDialect)
    (hj : JsonSafe o E h r) : Atoms o h (JAtom E) (fun s => s ≠ o.dialect.refKey) ∧ ∀ a, r = .atom a → JAtom E a where
  left :=
    { slot := by
        intro p x a hp ha
        cases a with
        | str s => exact repair_valid (hj.text s (.inr ⟨p, x, hp, ha⟩))
        | float f => exact hj.float f (.inr ⟨p, x, hp, ha⟩)
        | _ => trivial
      bin := fun p bs _ => repair_valid (valid_ascii (text_ascii bs))
      time := fun p t ht => repair_valid (hj.time p t ht)
      typ := fun p t ht => repair_valid (hj.typ p t ht)
      name := fun p t names n ht hn hx => repair_valid (hj.name p t names n ht hn hx)
      words := by
        intro s hs
        have h1 : ∀ d ∈ [dgoDialect, pcoreDialect], ∀ s ∈ [d.typeKey, d.valueKey, d.map, d.sensitive, d.binary, d.time, d.alias],
            ∀ b ∈ s, b.toNat < 128 := by decide
        exact repair_valid (valid_ascii (h1 o.dialect (by rcases hd with e | e <;> simp [e]) s hs))
      first := fun p s v es hp _ => hj.first p s v es hp
      typeKey := by rcases hd with e | e <;> rw [e] <;> decide }
  right := by
    intro a ha
    cases a with
    | str s => exact repair_valid (hj.text s (.inl ha))
    | float f => exact hj.float f (.inl ha)
    | _ => trivial

theorem stream_mono {o : Options} {k : Consumer} {h : Heap} {f0 fuel : Nat} {r : Ref} {e : Ev} (hf : f0 ≤ fuel)
    (he : stream o k h f0 r = .ok e) : stream o k h fuel r = .ok e := by
  obtain ⟨x, h1, h2⟩ := Out.map_ok he
  simp only [stream, emit_mono hf h1, Out.map, h2]

/-- **C48** (partial) A value is encoded and decoded again: it is read back, whatever is shared in it, with binaries, times, sensitive values,
types and maps with any keys.  `e` is the stream.  Partial, because the property is false otherwise (see below):
* rich values are not shared, unless there is no de-duplication (`C48_violated_shared`)
* no map looks like a type or a reference (`Streamable.noRef`, `Decodable.noType`, `JsonSafe.first`; `C48_violated_type_key`,
  `C48_violated_ref_key`)
* floats are not integral and finite (`JsonSafe.float`; `C48_violated_float`, `C48_violated_nan`)
* texts are UTF-8 (`JsonSafe.text`; `C48_violated_utf8`)
* with the pcore dialect nothing is shared (`C48_violated_pcore`)
* the value is finite (`Is`; cyclic plain data is in `C46_graph_partial`).
The stream has at most `2 ^ 63` items. -/
theorem C48_round_partial (o : Options) (E : JEnv) (D : Decoder) (h : Heap) (r : Ref) (t : T) (e : Ev) (f0 n : Nat)
    (hs : Streamable o jsonConsumer h) (hdec : Decodable o jsonConsumer D h) (hone : o.dedup = 0 ∨ OnePlace (isRich jsonConsumer) h r)
    (hj : JsonSafe o E h r) (ht : Is h r t) (he : stream o jsonConsumer h f0 r = .ok e) (hw : walk 0 e = some n) (hn : n ≤ 2 ^ 63)
    (hd : o.dialect = dgoDialect ∨ (o.dialect = pcoreDialect ∧ noRefs e = true)) :
    ∃ F ts h' r', (∀ fuel, F ≤ fuel → marshal o E h fuel r = .ok ts ∧ unmarshal D E fuel ts = .ok (h', r')) ∧ Is h' r' t := by
  have hd' : o.dialect = dgoDialect ∨ o.dialect = pcoreDialect := hd.imp id (·.1)
  have hsd : o.dialect.Sound := by
    rcases hd' with e | e <;> rw [e]
    · exact dgoDialect_sound
    · exact pcoreDialect_sound
  obtain ⟨F, h', r', htr, hres⟩ := C46_decoded_partial o jsonConsumer D h r t hs hsd hdec hone ht
  obtain ⟨ha, hra⟩ := safe_atoms hd' hj
  have hstream : ∀ fuel, f0 ≤ fuel → stream o jsonConsumer h fuel r = .ok e := fun fuel hf => stream_mono hf he
  have hfine : Fine (JAtom E) (SmallRef o.dialect.refKey) (fun s => s ≠ o.dialect.refKey) e := by
    obtain ⟨x, h1, rfl⟩ := Out.map_ok he
    have hf := emit_fine (PR := fun _ => True) ha hs.named (fun _ _ _ _ _ => trivial) f0 _ r _ x.1 x.2 (level_json o) (.inr fun _ => trivial) hra h1
    rcases hd with hd | ⟨hd, hnr⟩
    · have := (fine_walk (B := 2 ^ 63) x.2 0 n hw hn hf).1
      have e1 : (fun i : Int => 0 ≤ i ∧ i < ((2 ^ 63 : Nat) : Int)) = SmallRef o.dialect.refKey := by
        funext i
        simp [SmallRef, hd]
      rw [e1] at this
      exact this
    · exact fine_noRefs x.2 hnr hf
  obtain ⟨ts, hts⟩ := jtoks_some e hfine
  refine ⟨max (max F f0) (esize e), ts, h', r', ?_, hres⟩
  intro fuel hf
  have hst := hstream fuel (by omega)
  have htr' := htr fuel (by omega)
  simp only [transfer, hst] at htr'
  constructor
  · simp only [marshal, hst, jenc_eq, hts, Option.map_some, pre, List.nil_append]
  · have := jelem_read e ts [] fuel none (.inl rfl) hfine hts (by omega)
    rw [List.append_nil] at this
    simp only [unmarshal, hdec.dialect, this]
    exact htr'

/-! The example of `Verif.Stream.Props`, with either dialect -/

theorem exSafe (n : Nat) : JsonSafe (exOptions n) exEnv exHeap (.obj 0) where
  text := by
    intro s hs
    refine valid_ascii ?_
    rcases hs with hs | ⟨p, x, hp, hs⟩
    · cases hs
    · have : ∀ p x, exHeap p = some x → ∀ s, Ref.atom (.str s) ∈ slots x → s = exText ∨ s = txt "k" :=
        exHeap_cases (by simp [slots]) (by simp [slots]) (by simp [slots]) (by simp [slots]) (by simp [slots])
      rcases this p x hp s hs with rfl | rfl
      · decide
      · decide
  float := by
    intro f hf
    rcases hf with hf | ⟨p, x, hp, hs⟩
    · cases hf
    · have : ∀ p x, exHeap p = some x → Ref.atom (.float f) ∉ slots x :=
        exHeap_cases (by simp [slots]) (by simp [slots]) (by simp [slots]) (by simp [slots]) (by simp [slots])
      exact absurd hs (this p x hp)
  time := by
    intro p t hp
    have : ∀ p x, exHeap p = some x → ∀ t, x ≠ .time t := exHeap_cases (by simp) (by simp) (by simp) (by simp) (by simp)
    exact absurd rfl (this p _ hp t)
  typ := by
    intro p x hp
    have : ∀ p x, exHeap p = some x → ∀ t, x ≠ .typ t := exHeap_cases (by simp) (by simp) (by simp) (by simp) (by simp)
    exact absurd rfl (this p _ hp x)
  name := fun _ _ _ _ _ e => by cases e
  first := by
    intro p s v es hp
    have : ∀ p x, exHeap p = some x → ∀ s v es, x = .map ((.atom (.str s), v) :: es) → s ≠ dgoDialect.refKey :=
      exHeap_cases (by simp) (by rintro s v es ⟨⟩; decide) (by simp) (by simp) (by simp)
    exact this p _ hp s v es rfl

/-- The value of an outcome, for examples -/
def Out.get {α : Type} [Inhabited α] : Out α → α
  | .ok a => a
  | _ => default

instance : Inhabited Ev := ⟨.ref 0⟩

example : ∃ F ts h' r', (∀ fuel, F ≤ fuel → marshal (exOptions 1) exEnv exHeap fuel (.obj 0) = .ok ts
    ∧ unmarshal exDecoder exEnv fuel ts = .ok (h', r')) ∧ Is h' r' exTree :=
  C48_round_partial (exOptions 1) exEnv exDecoder exHeap (.obj 0) exTree (stream (exOptions 1) jsonConsumer exHeap 9 (.obj 0)).get 9 21
    (exStreamable 1 _) (exDecodable 1 _) (.inr (exOnePlace _ rfl)) (exSafe 1) ⟨5, rfl⟩ rfl (by decide +kernel) (by decide) (.inl rfl)

/-! ## What does not hold -/

/-- What is read back, looking at most nine objects deep -/
def readBack (o : Options) (D : Decoder) (E : JEnv) (h : Heap) (r : Ref) : Option T :=
  match marshal o E h 20 r with
  | .ok ts =>
    match unmarshal D E 40 ts with
    | .ok (h', r') => den h' 9 r'
    | _ => none
  | _ => none

mutual
/-- Equality of values, computed (for the examples only) -/
def T.same : T → T → Bool
  | .nil, .nil => true
  | .bool a, .bool b => decide (a = b)
  | .int a, .int b => decide (a = b)
  | .float a, .float b => decide (a = b)
  | .str a, .str b => decide (a = b)
  | .bin a, .bin b => decide (a = b)
  | .time a, .time b => decide (a = b)
  | .typ a, .typ b => decide (a = b)
  | .sens a, .sens b => T.same a b
  | .arr a, .arr b => T.sameAll a b
  | .map a, .map b => T.samePairs a b
  | _, _ => false
def T.sameAll : List T → List T → Bool
  | [], [] => true
  | a :: as, b :: bs => T.same a b && T.sameAll as bs
  | _, _ => false
def T.samePairs : List (T × T) → List (T × T) → Bool
  | [], [] => true
  | (k, v) :: as, (k', v') :: bs => T.same k k' && T.same v v' && T.samePairs as bs
  | _, _ => false
end

mutual
theorem same_eq : ∀ a b : T, T.same a b = true → a = b
  | .nil, b, h => by cases b <;> simp_all [T.same]
  | .bool a, b, h => by cases b <;> simp_all [T.same]
  | .int a, b, h => by cases b <;> simp_all [T.same]
  | .float a, b, h => by cases b <;> simp_all [T.same]
  | .str a, b, h => by cases b <;> simp_all [T.same]
  | .bin a, b, h => by cases b <;> simp_all [T.same]
  | .time a, b, h => by cases b <;> simp_all [T.same]
  | .typ a, b, h => by cases b <;> simp_all [T.same]
  | .sens a, b, h => by
    cases b <;> simp only [T.same, Bool.false_eq_true] at h
    rw [same_eq a _ h]
  | .arr a, b, h => by
    cases b <;> simp only [T.same, Bool.false_eq_true] at h
    rw [sameAll_eq a _ h]
  | .map a, b, h => by
    cases b <;> simp only [T.same, Bool.false_eq_true] at h
    rw [samePairs_eq a _ h]
theorem sameAll_eq : ∀ a b : List T, T.sameAll a b = true → a = b
  | [], b, h => by cases b <;> simp_all [T.sameAll]
  | a :: as, b, h => by
    cases b <;> simp only [T.sameAll, Bool.false_eq_true, Bool.and_eq_true] at h
    rw [same_eq a _ h.1, sameAll_eq as _ h.2]
theorem samePairs_eq : ∀ a b : List (T × T), T.samePairs a b = true → a = b
  | [], b, h => by cases b <;> simp_all [T.samePairs]
  | (k, v) :: as, b, h => by
    match b with
    | [] => simp [T.samePairs] at h
    | (k', v') :: bs =>
      simp only [T.samePairs, Bool.and_eq_true] at h
      rw [same_eq k _ h.1.1, same_eq v _ h.1.2, samePairs_eq as _ h.2]
end

theorem same_some {x : Option T} {t : T} (h : (x.any fun a => T.same a t) = true) : x = some t := by
  cases x with
  | none => simp at h
  | some a => rw [same_eq a t h]

def heapOf (l : List Obj) : Heap := fun p => l[p]?

/-- **C48** does not hold if a rich value is shared: the reference is resolved to the map that encodes it. -/
theorem C48_violated_shared :
    readBack (exOptions 1) exDecoder exEnv (heapOf [.arr [.obj 1, .obj 1], .bin [1, 2, 3]]) (.obj 0)
      = some (.arr [.bin [1, 2, 3], .map [(.str (txt "__type"), .str (txt "binary")), (.str (txt "__value"), .str (txt "AQID"))]])
    ∧ den (heapOf [.arr [.obj 1, .obj 1], .bin [1, 2, 3]]) 9 (.obj 0) = some (.arr [.bin [1, 2, 3], .bin [1, 2, 3]]) := ⟨same_some (by decide +kernel), same_some (by decide +kernel)⟩

/-- **C48** does not hold for a map that has the key of the type: it is read as a type. -/
theorem C48_violated_type_key :
    readBack (exOptions 1) exDecoder exEnv (heapOf [.map [(.atom (.str (txt "__type")), .atom (.str (txt "int")))]]) (.obj 0)
      = some (.typ (txt "int"))
    ∧ den (heapOf [.map [(.atom (.str (txt "__type")), .atom (.str (txt "int")))]]) 9 (.obj 0)
      = some (.map [(.str (txt "__type"), .str (txt "int"))]) := ⟨same_some (by decide +kernel), same_some (by decide +kernel)⟩

/-- **C48** does not hold for a map whose first key is that of references: it is not read at all. -/
theorem C48_violated_ref_key (fuel : Nat) :
    ∃ ts, (∀ fuel, 2 ≤ fuel → marshal (exOptions 1) exEnv (heapOf [.map [(.atom (.str (txt "__ref")), .atom (.str (txt "x")))]]) fuel (.obj 0) = .ok ts)
      ∧ unmarshal exDecoder exEnv (fuel + 1) ts = .panic := by
  refine ⟨[.lbrace, .str (txt "__ref"), .colon, .str (txt "x"), .rbrace], ?_, rfl⟩
  intro fuel hf
  have h2 : stream (exOptions 1) jsonConsumer (heapOf [.map [(.atom (.str (txt "__ref")), .atom (.str (txt "x")))]]) 2 (.obj 0)
      = .ok (.map [.add (.str (txt "__ref")), .add (.str (txt "x"))]) := rfl
  simp only [marshal, stream_mono hf h2]
  decide +kernel

/-- **C48** does not hold for integral floats: `json.Marshal(1.0)` is `1`, which is read as an integer. -/
theorem C48_violated_float (E : JEnv) (hE : E.floatText 0x3FF0000000000000 = some (txt "1")) (fuel : Nat) :
    marshal (exOptions 1) E (heapOf []) fuel (.atom (.float 0x3FF0000000000000)) = .ok [.num (txt "1")]
    ∧ ∃ h', unmarshal exDecoder E (fuel + 1) [.num (txt "1")] = .ok (h', .atom (.int 1)) := by
  constructor
  · have : stream (exOptions 1) jsonConsumer (heapOf []) fuel (.atom (.float 0x3FF0000000000000)) = .ok (.add (.float 0x3FF0000000000000)) := by
      cases fuel <;> rfl
    simp only [marshal, this, jenc, jwrite, hE, delimit, Option.map_some]
  · exact ⟨_, rfl⟩

/-- **C48** does not hold for floats that JSON has no text for (NaN and the infinities): `MarshalJSON` panics. -/
theorem C48_violated_nan (E : JEnv) (f : BitVec 64) (hE : E.floatText f = none) (fuel : Nat) :
    marshal (exOptions 1) E (heapOf []) fuel (.atom (.float f)) = .panic := by
  have : stream (exOptions 1) jsonConsumer (heapOf []) fuel (.atom (.float f)) = .ok (.add (.float f)) := by
    cases fuel <;> rfl
  simp only [marshal, this, jenc, jwrite, hE, delimit, Option.map_none]

/-- **C48** does not hold for strings that are not UTF-8. -/
theorem C48_violated_utf8 :
    readBack (exOptions 1) exDecoder exEnv (heapOf []) (.atom (.str [97, 255])) = some (.str [97, 0xEF, 0xBF, 0xBD]) := same_some (by decide +kernel)

/-- **C48** does not hold with the pcore dialect if something is shared: the encoder writes `__ref`, the decoder expects `__pref`. -/
theorem C48_violated_pcore :
    readBack { exOptions 1 with dialect := pcoreDialect } { exDecoder with dialect := pcoreDialect } exEnv
      (heapOf [.arr [.obj 1, .obj 1], .arr [.atom .nil]]) (.obj 0) = some (.arr [.arr [.nil], .map [(.str (txt "__ref"), .int 1)]]) := same_some (by decide +kernel)

/-- `{1: a}` where `a` is the array `[a]` -/
def loopHeap : Heap := heapOf [.map [(.atom (.int 1), .obj 1)], .arr [.obj 1]]

theorem replace_loop (h : List (Option Obj)) (p nm q : Nat) (hq : h[q]? = some (some (.arr [.obj q]))) (hp : q ≠ p) :
    ∀ n, replace p nm n h (.obj q) = .deep
  | 0 => rfl
  | n + 1 => by simp [replace, hp, hq, replaceAll, replace_loop h p nm q hq hp n]

/-- **C48** does not hold, and the decoder does not end, for a map with other keys than strings that holds an array that contains itself: the
decoder visits the array again and again to replace what encodes the map. -/
theorem C48_violated_loop (fuel : Nat) : transfer (exOptions 1) jsonConsumer (some exDecoder) loopHeap fuel (.obj 0) = .deep := by
  match fuel with
  | 0 => rfl
  | 1 => rfl
  | 2 => rfl
  | 3 => rfl
  | n + 4 =>
    have h2 : stream (exOptions 1) jsonConsumer loopHeap 4 (.obj 0) = .ok (.map [.add (.str (txt "__type")), .add (.str (txt "map")),
      .add (.str (txt "__value")), .arr [.add (.int 1), .arr [.ref 6]]]) := rfl
    simp only [transfer, stream_mono (Nat.le_add_left 4 n) h2]
    have h3 : collect (some exDecoder) (n + 4) Coll.empty (.map [.add (.str (txt "__type")), .add (.str (txt "map")),
        .add (.str (txt "__value")), .arr [.add (.int 1), .arr [.ref 6]]]) = .deep := by
      have h4 : replace 0 3 (n + 4) [some (.map [(.atom (.str (txt "__type")), .atom (.str (txt "map"))), (.atom (.str (txt "__value")), .obj 1)]),
          some (.arr [.atom (.int 1), .obj 2]), some (.arr [.obj 2]), some (.map [(.atom (.int 1), .obj 2)])] (.obj 3) = .deep := by
        simp [replace, replaceAll, replace_loop]
      have h5 : collectAll (some exDecoder) (n + 4) ((Coll.empty.new none).push (.obj 0)) [.add (.str (txt "__type")), .add (.str (txt "map")),
          .add (.str (txt "__value")), .arr [.add (.int 1), .arr [.ref 6]]]
        = .ok (⟨[none, some (.arr [.atom (.int 1), .obj 2]), some (.arr [.obj 2])], [.obj 0, .atom (.str (txt "__type")), .atom (.str (txt "map")),
          .atom (.str (txt "__value")), .obj 1, .atom (.int 1), .obj 2]⟩, [.atom (.str (txt "__type")), .atom (.str (txt "map")),
          .atom (.str (txt "__value")), .obj 1]) := rfl
      have h6 : (txt "map" = exDecoder.dialect.map) = True := by decide
      have h7 : getStr exDecoder.dialect.typeKey (toPairs [.atom (.str (txt "__type")), .atom (.str (txt "map")),
          .atom (.str (txt "__value")), .obj 1]) = some (.atom (.str (txt "map"))) := by decide
      have h8 : getStr exDecoder.dialect.valueKey (toPairs [.atom (.str (txt "__type")), .atom (.str (txt "map")),
          .atom (.str (txt "__value")), .obj 1]) = some (.obj 1) := by decide
      simp only [collect]
      rw [show Coll.empty.cells.length = 0 from rfl, h5]
      simp only [h7, decode, h8, h6, if_true]
      simp [toPairs, Coll.fill, Coll.heap, Coll.new]
      rw [show (1#64 : BitVec 64) = 1 from rfl, h4]
    rw [h3]
    rfl

end Verif.Stream
