import Verif.Stream.Walk
import Verif.Stream.Once
/-!
# C46: streaming
-/
set_option autoImplicit false
set_option linter.unusedVariables false
namespace Verif.Stream
open Verif.Value (Str)

/-! ## Finite values -/

/-- What a value is at every level of de-duplication, with a collector or with a decoder -/
theorem transfer_tree {o : Options} {k : Consumer} {D : Option Decoder} {h : Heap} {r : Ref} {t : T} (hs : Streamable o k h) (hsd : o.dialect.Sound)
    (hdec : ∀ d, D = some d → Decodable o k d h) (hone : o.dedup = 0 ∨ OnePlace (sel D k) h r) (ht : Is h r t) :
    ∃ F h' r', (∀ fuel, F ≤ fuel → transfer o k D h fuel r = .ok (h', r')) ∧ Is h' r' (view D o k t) := by
  obtain ⟨n, hn⟩ := ht
  obtain ⟨s', ev, c', r', F0, h1, h2, _, h3, _⟩ := P_all hs hsd hdec n n (Nat.le_refl n) r t hn (level o k)
    { values := [], refIndex := 0 } Coll.empty ⟨rfl, by simp⟩ (by intro p i hm; simp at hm)
    (by
      rcases hone with h0 | hone
      · exact .inl (by simp [level, h0])
      · exact .inr ⟨⟨hone, fun p _ hk => by obtain ⟨i, hi⟩ := hk; simp at hi⟩, .inl rfl, fun p _ _ hk => by obtain ⟨i, hi⟩ := hk; simp at hi⟩)
  refine ⟨max n F0, c'.heap, r', ?_, h3⟩
  intro fuel hf
  have e1 := emit_mono (Nat.le_trans (Nat.le_max_left n F0) hf) h1
  have e2 := h2 fuel (Nat.le_trans (Nat.le_max_right n F0) hf)
  simp only [transfer, stream, e1, Out.map, e2]

/-- **C46** (partial) A finite value is streamed to a collector, whatever is shared in it, at every level of de-duplication and with every
threshold for strings; the collector ends up with the same value, where what the consumer cannot do is encoded (`enc`).  Partial: of values
that are `Streamable`, see `C46_violated_ref`. -/
theorem C46_collected_partial (o : Options) (k : Consumer) (h : Heap) (r : Ref) (t : T) (hs : Streamable o k h) (hsd : o.dialect.Sound)
    (ht : Is h r t) : ∃ F h' r', (∀ fuel, F ≤ fuel → transfer o k none h fuel r = .ok (h', r')) ∧ Is h' r' (enc o k t) :=
  transfer_tree hs hsd (fun d e => by cases e) (.inr ⟨fun _ _ _ _ _ e => by simp [sel] at e, fun _ _ _ _ _ _ _ e => by simp [sel] at e,
    fun _ _ _ _ _ e => by simp [sel] at e⟩) ht

mutual
/-- Neither sensitive values nor types -/
def T.data : T → Bool
  | .sens _ => false
  | .typ _ => false
  | .arr es => T.dataAll es
  | .map es => T.dataEntries es
  | _ => true
def T.dataAll : List T → Bool
  | [] => true
  | t :: ts => t.data && T.dataAll ts
def T.dataEntries : List (T × T) → Bool
  | [] => true
  | (t, t') :: ts => t.data && t'.data && T.dataEntries ts
end

mutual
theorem enc_data {o : Options} {k : Consumer} (h1 : k.binary = true) (h2 : k.time = true) (h3 : k.complexKeys = true) :
    ∀ t : T, t.data = true → enc o k t = t
  | .nil, _ => by simp [enc]
  | .bool _, _ => by simp [enc]
  | .int _, _ => by simp [enc]
  | .float _, _ => by simp [enc]
  | .str _, _ => by simp [enc]
  | .bin _, _ => by simp [enc, h1]
  | .time _, _ => by simp [enc, h2]
  | .typ _, h => by simp [T.data] at h
  | .sens _, h => by simp [T.data] at h
  | .arr es, h => by simp only [T.data] at h; simp only [enc, encAll_data h1 h2 h3 es h]
  | .map es, h => by simp only [T.data] at h; simp only [enc, h3, Bool.true_or, if_true, encEntries_data h1 h2 h3 es h]
theorem encAll_data {o : Options} {k : Consumer} (h1 : k.binary = true) (h2 : k.time = true) (h3 : k.complexKeys = true) :
    ∀ ts : List T, T.dataAll ts = true → encAll o k ts = ts
  | [], _ => by simp [encAll]
  | t :: ts, h => by
    simp only [T.dataAll, Bool.and_eq_true] at h
    simp only [encAll, enc_data h1 h2 h3 t h.1, encAll_data h1 h2 h3 ts h.2]
theorem encEntries_data {o : Options} {k : Consumer} (h1 : k.binary = true) (h2 : k.time = true) (h3 : k.complexKeys = true) :
    ∀ ts : List (T × T), T.dataEntries ts = true → encEntries o k ts = ts
  | [], _ => by simp [encEntries]
  | (t, t') :: ts, h => by
    simp only [T.dataEntries, Bool.and_eq_true] at h
    simp only [encEntries, enc_data h1 h2 h3 t h.1.1, enc_data h1 h2 h3 t' h.1.2, encEntries_data h1 h2 h3 ts h.2]
end

/-- **C46** (partial) With a `BasicCollector` the value is equal.  (Sensitive values and types are encoded for every consumer.) -/
theorem C46_equal_partial (o : Options) (h : Heap) (r : Ref) (t : T) (hs : Streamable o basicConsumer h) (hsd : o.dialect.Sound)
    (hd : t.data = true) (ht : Is h r t) :
    ∃ F h' r', (∀ fuel, F ≤ fuel → transfer o basicConsumer none h fuel r = .ok (h', r')) ∧ Is h' r' t := by
  obtain ⟨F, h', r', h1, h2⟩ := C46_collected_partial o basicConsumer h r t hs hsd ht
  rw [enc_data rfl rfl rfl t hd] at h2
  exact ⟨F, h', r', h1, h2⟩

/-- **C46** (partial) A decoder ends up with the value itself, sensitive values, types, binaries, times and maps with any keys included.
Partial: these must not be shared if there is de-duplication (see `C48_violated_shared`), and no map has the key of the type with a string. -/
theorem C46_decoded_partial (o : Options) (k : Consumer) (D : Decoder) (h : Heap) (r : Ref) (t : T) (hs : Streamable o k h)
    (hsd : o.dialect.Sound) (hdec : Decodable o k D h) (hone : o.dedup = 0 ∨ OnePlace (isRich k) h r) (ht : Is h r t) :
    ∃ F h' r', (∀ fuel, F ≤ fuel → transfer o k (some D) h fuel r = .ok (h', r')) ∧ Is h' r' t := by
  have : sel (some D) k = isRich k := by funext x; simp [sel]
  exact transfer_tree hs hsd (fun d e => by cases e; exact hdec) (by rw [this]; exact hone) ht

/-! An example: `["abc…", {"k": Binary}, the same Binary, "abc…", a map with an integer key]`. -/

def exText : Str := txt "a text of more than twenty bytes"

def exHeap : Heap
  | 0 => some (.arr [.atom (.str exText), .obj 1, .obj 2, .atom (.str exText), .obj 3, .obj 1])
  | 1 => some (.map [(.atom (.str (txt "k")), .obj 4)])
  | 2 => some (.sens (.atom (.int 3)))
  | 3 => some (.map [(.atom (.int 1), .atom .nil)])
  | 4 => some (.bin [1, 2, 3])
  | _ => none

def exOptions (dedup : Nat) : Options := { dedup := dedup, dialect := dgoDialect, rich := true, names := none, timeText := fun _ => [] }

def exTree : T := .arr [.str exText, .map [(.str (txt "k"), .bin [1, 2, 3])], .sens (.int 3), .str exText, .map [(.int 1, .nil)],
  .map [(.str (txt "k"), .bin [1, 2, 3])]]

theorem exHeap_cases {P : Nat → Obj → Prop} (h0 : P 0 (.arr [.atom (.str exText), .obj 1, .obj 2, .atom (.str exText), .obj 3, .obj 1]))
    (h1 : P 1 (.map [(.atom (.str (txt "k")), .obj 4)])) (h2 : P 2 (.sens (.atom (.int 3)))) (h3 : P 3 (.map [(.atom (.int 1), .atom .nil)]))
    (h4 : P 4 (.bin [1, 2, 3])) : ∀ p x, exHeap p = some x → P p x := by
  intro p x hx
  match p, hx with
  | 0, hx => cases hx; exact h0
  | 1, hx => cases hx; exact h1
  | 2, hx => cases hx; exact h2
  | 3, hx => cases hx; exact h3
  | 4, hx => cases hx; exact h4
  | _ + 5, hx => cases hx

theorem exStreamable (n : Nat) (k : Consumer) : Streamable (exOptions n) k exHeap where
  noRef := by
    intro p es hp
    have : ∀ p x, exHeap p = some x → ∀ es, x = .map es → verbatim dgoDialect es = none :=
      exHeap_cases (by simp) (by rintro es ⟨⟩; decide) (by simp) (by rintro es ⟨⟩; decide) (by simp)
    exact fun _ => this p _ hp es rfl
  rich := .inl rfl
  named := by
    intro p x names hp
    have : ∀ p x, exHeap p = some x → ∀ t, x ≠ .typ t := exHeap_cases (by simp) (by simp) (by simp) (by simp) (by simp)
    exact absurd rfl (this p _ hp x)

def exDecoder : Decoder := { dialect := dgoDialect, parseType := some, parseTime := fun _ => none }

theorem exDecodable (n : Nat) (k : Consumer) : Decodable (exOptions n) k exDecoder exHeap where
  dialect := rfl
  noType := by
    intro p es v s hp _ hv e
    subst e
    have : ∀ p x, exHeap p = some x → ∀ es, x = .map es → (Ref.atom (.str dgoDialect.typeKey), Ref.atom (.str s)) ∉ es :=
      exHeap_cases (by simp) (by rintro es ⟨⟩; simp) (by simp) (by rintro es ⟨⟩; simp) (by simp)
    exact this p _ hp es rfl hv
  time := by
    intro p t hp
    have : ∀ p x, exHeap p = some x → ∀ t, x ≠ .time t := exHeap_cases (by simp) (by simp) (by simp) (by simp) (by simp)
    exact absurd rfl (this p _ hp t)
  typ := fun p x hp => rfl

example : den exHeap 5 (.obj 0) = some exTree := rfl
example (n : Nat) (k : Consumer) : ∃ F h' r', (∀ fuel, F ≤ fuel → transfer (exOptions n) k none exHeap fuel (.obj 0) = .ok (h', r'))
    ∧ Is h' r' (enc (exOptions n) k exTree) :=
  C46_collected_partial (exOptions n) k exHeap (.obj 0) exTree (exStreamable n k) dgoDialect_sound ⟨5, rfl⟩
example : ∃ F h' r', (∀ fuel, F ≤ fuel → transfer (exOptions 2) basicConsumer none exHeap fuel (.obj 3) = .ok (h', r'))
    ∧ Is h' r' (.map [(.int 1, .nil)]) :=
  C46_equal_partial (exOptions 2) exHeap (.obj 3) _ (exStreamable 2 _) dgoDialect_sound (by decide +kernel) ⟨2, rfl⟩

theorem exOnePlace (k : Consumer) (hk : k.binary = false) : OnePlace (isRich k) exHeap (.obj 0) := by
  have hin : ∀ w x, exHeap w = some x → (slots x).count (.obj 2) ≤ 1 ∧ (slots x).count (.obj 3) ≤ 1 ∧ (slots x).count (.obj 4) ≤ 1
      ∧ (.obj 2 ∈ slots x → w = 0) ∧ (.obj 3 ∈ slots x → w = 0) ∧ (.obj 4 ∈ slots x → w = 1) ∧ .obj 0 ∉ slots x :=
    exHeap_cases (by decide) (by decide) (by decide) (by decide) (by decide)
  have hsel : ∀ p x, exHeap p = some x → isRich k x = true → p = 2 ∨ p = 3 ∨ p = 4 :=
    exHeap_cases (by simp [isRich]) (by intro h; simp [isRich, plainMap, stringKeys] at h) (by simp) (by simp) (by simp)
  refine ⟨?_, ?_, ?_⟩
  · intro p x w y hp hs hw
    have := hin w y hw
    rcases hsel p x hp hs with rfl | rfl | rfl <;> simp [this]
  · intro p x w y w' y' hp hs hw hw' hm hm'
    have h1 := hin w y hw
    have h2 := hin w' y' hw'
    rcases hsel p x hp hs with rfl | rfl | rfl <;> simp_all
  · intro p x w y hp hs hw e
    cases e
    rcases hsel _ x hp hs with h | h | h <;> cases h

example : ∃ F h' r', (∀ fuel, F ≤ fuel → transfer (exOptions 1) jsonConsumer (some exDecoder) exHeap fuel (.obj 0) = .ok (h', r'))
    ∧ Is h' r' exTree :=
  C46_decoded_partial (exOptions 1) jsonConsumer exDecoder exHeap (.obj 0) exTree (exStreamable 1 _) dgoDialect_sound (exDecodable 1 _)
    (.inr (exOnePlace jsonConsumer rfl)) ⟨5, rfl⟩

/-! ## Strings -/

/-- **C46** (partial) With de-duplication, a string of at least as many bytes as the consumer's threshold is sent once at most.  Partial: strings that
are keys of maps are sent every time unless the consumer can do with any key and the level is `MaxDedup`; so are the texts of types without
aliases, and what the dialect adds. -/
theorem C46_string_once_partial (o : Options) (k : Consumer) (h : Heap) (r : Ref) (x : Str) (hx : k.threshold ≤ x.length) (hd : o.dialect.Without x)
    (hr : Reused x o k h) (hl : o.dedup ≠ 0) (fuel : Nat) (e : Ev) (he : stream o k h fuel r = .ok e) : sent x e ≤ 1 :=
  stream_once hx hd hr hl he

/-- It takes as many bytes as the threshold, which is 20 for JSON, and it is in the array twice. -/
example : ∃ h : Heap, (∃ p rs, h p = some (.arr rs) ∧ rs.count (.atom (.str (txt "twenty bytes of text"))) = 2) ∧
    jsonConsumer.threshold = (txt "twenty bytes of text").length ∧ (exOptions 1).dialect.Without (txt "twenty bytes of text") ∧
    Reused (txt "twenty bytes of text") (exOptions 1) jsonConsumer h ∧ (∃ e, stream (exOptions 1) jsonConsumer h 3 (.obj 0) = .ok e) := by
  refine ⟨fun p => if p = 0 then some (.arr [.atom (.str (txt "twenty bytes of text")), .atom (.str (txt "twenty bytes of text"))]) else none,
    ⟨0, _, rfl, by decide⟩, by decide, by unfold Dialect.Without; decide, ⟨?_, ?_⟩, _, rfl⟩
  · intro p es h; simp at h
  · intro p h; simp at h

/-! ## Graphs -/

theorem transfer_graph {o : Options} {k : Consumer} {h : Heap} {r : Ref} {Q : Prop} (hs : Streamable o k h) (hcl : Closed h) {N d : Nat}
    (hN : ∀ p x, h p = some x → p < N) (hkey : ∀ p es e, h p = some (.map es) → e ∈ es → ∃ t, den h d e.1 = some t)
    (hr : ∀ p, r = .obj p → ∃ x, h p = some x) (hl : level o k ≠ 0) (hQ : Q → Once k h (level o k) r) :
    ∃ h' r' R, (∀ fuel, N + d < fuel → transfer o k none h fuel r = .ok (h', r')) ∧ Represents o k h h' R ∧ Rel R r r'
      ∧ (∀ p p' q, R p q → R p' q → p = p') ∧ (Q → ∀ p q q', R p q → R p q' → q = q') := by
  let s0 : St := { values := [], refIndex := 0 }
  have hle : left N s0 ≤ N := by
    have := List.countP_le_length (p := fun p => (lookup (.obj p) s0.values).isNone) (l := List.range N)
    rw [List.length_range] at this
    exact this
  obtain ⟨s', ev, h1, _⟩ := ok_dedup hs hcl hN hkey (N + d + 1) (level o k) hl s0 r hr (by omega)
  have hi : GInv o k h Q [] s0 Coll.empty (fun _ _ => False) :=
    ⟨⟨rfl, by simp [s0]⟩, fun p i hm => by simp [s0] at hm, fun p r hf => hf.elim, fun p r hf => hf.elim, fun p p' r hf => hf.elim,
      fun _ p r hf => hf.elim, fun p i j hm => by simp [s0] at hm⟩
  obtain ⟨c', r', R, h2, h3, _, _, h5⟩ := GP_all hs (N + d + 1) (level o k) r s0 Coll.empty [] _ s' ev hQ hi h1
  refine ⟨c'.heap, r', R, ?_, ?_, h5, h3.inj, ?_⟩
  · intro fuel hf
    have e1 := emit_mono (show N + d + 1 ≤ fuel from hf) h1
    have e2 : emit o k h fuel (level o k) { values := [], refIndex := 0 } r = .ok (s', ev) := e1
    simp only [transfer, stream, e2, Out.map, h2]
  · intro p x hR
    rcases h3.enc p x hR with ⟨q, hq, _⟩ | he
    · simp at hq
    · exact he
  · intro q p x y hx hy
    obtain ⟨i, hi1, hi2⟩ := h3.full q p x hx
    obtain ⟨j, hj1, hj2⟩ := h3.full q p y hy
    have := h3.uniq p i j hi1 hj1
    subst this
    rw [hi2] at hj2
    injection hj2

/-- **C46** (partial) With de-duplication any graph of `N` objects is streamed, cycles included, with a recursion depth that exceeds `N` by
the depth of the keys only.  The objects that the collector ends up with represent those of the source: `R` relates every object that can
be reached to at least one, atoms stay what they are, and different objects stay different.  Partial: `Streamable`. -/
theorem C46_graph_partial (o : Options) (k : Consumer) (h : Heap) (r : Ref) (hs : Streamable o k h) (hcl : Closed h) (N d : Nat)
    (hN : ∀ p x, h p = some x → p < N) (hkey : ∀ p es e, h p = some (.map es) → e ∈ es → ∃ t, den h d e.1 = some t)
    (hr : ∀ p, r = .obj p → ∃ x, h p = some x) (hl : o.dedup ≠ 0) :
    ∃ h' r' R, (∀ fuel, N + d < fuel → transfer o k none h fuel r = .ok (h', r')) ∧ Represents o k h h' R ∧ Rel R r r'
      ∧ (∀ p p' q, R p q → R p' q → p = p') := by
  obtain ⟨h', r', R, h1, h2, h3, h4, _⟩ := transfer_graph (Q := False) hs hcl hN hkey hr
    (by unfold level; split <;> omega) (fun q => q.elim)
  exact ⟨h', r', R, h1, h2, h3, h4⟩

/-- **C46** (partial) If only atoms are keys, or the consumer can do with any key and the level is `MaxDedup`, then every object is emitted
once: what was shared is shared. -/
theorem C46_once_partial (o : Options) (k : Consumer) (h : Heap) (r : Ref) (hs : Streamable o k h) (hcl : Closed h) (N d : Nat)
    (hN : ∀ p x, h p = some x → p < N) (hkey : ∀ p es e, h p = some (.map es) → e ∈ es → ∃ t, den h d e.1 = some t)
    (hr : ∀ p, r = .obj p → ∃ x, h p = some x) (hl : o.dedup ≠ 0) (honce : AtomKeys h ∨ (k.complexKeys = true ∧ o.dedup ≥ 2)) :
    ∃ h' r' R, (∀ fuel, N + d < fuel → transfer o k none h fuel r = .ok (h', r')) ∧ Represents o k h h' R ∧ Rel R r r'
      ∧ (∀ p p' q, R p q → R p' q → p = p') ∧ (∀ p q q', R p q → R p q' → q = q') := by
  have hl' : level o k ≠ 0 := by unfold level; split <;> omega
  obtain ⟨h', r', R, h1, h2, h3, h4, h5⟩ := transfer_graph (Q := True) hs hcl hN hkey hr hl' (fun _ => .inr ⟨hl', by
    rcases honce with h1 | ⟨h1, h2⟩
    · exact .inl h1
    · refine .inr ⟨h1, ?_⟩
      unfold level
      rw [h1]
      simpa using h2⟩)
  exact ⟨h', r', R, h1, h2, h3, h4, h5 trivial⟩

/-- An array with a map that contains the array, and itself -/
def cyHeap : Heap
  | 0 => some (.arr [.obj 1, .atom (.str (txt "x")), .obj 1])
  | 1 => some (.map [(.atom (.str (txt "up")), .obj 0), (.atom (.str (txt "me")), .obj 1)])
  | _ => none

theorem cyHeap_cases {P : Nat → Obj → Prop} (h0 : P 0 (.arr [.obj 1, .atom (.str (txt "x")), .obj 1]))
    (h1 : P 1 (.map [(.atom (.str (txt "up")), .obj 0), (.atom (.str (txt "me")), .obj 1)])) : ∀ p x, cyHeap p = some x → P p x := by
  intro p x hx
  match p, hx with
  | 0, hx => cases hx; exact h0
  | 1, hx => cases hx; exact h1
  | _ + 2, hx => cases hx

theorem cyStreamable (n : Nat) (k : Consumer) : Streamable (exOptions n) k cyHeap where
  noRef := by
    intro p es hp
    have : ∀ p x, cyHeap p = some x → ∀ es, x = .map es → verbatim dgoDialect es = none := cyHeap_cases (by simp) (by rintro es ⟨⟩; decide)
    exact fun _ => this p _ hp es rfl
  rich := .inl rfl
  named := by
    intro p x names hp
    have : ∀ p x, cyHeap p = some x → ∀ t, x ≠ .typ t := cyHeap_cases (by simp) (by simp)
    exact absurd rfl (this p _ hp x)

example : ∃ h' r' R, (∀ fuel, 2 + 0 < fuel → transfer (exOptions 1) dataConsumer none cyHeap fuel (.obj 0) = .ok (h', r'))
    ∧ Represents (exOptions 1) dataConsumer cyHeap h' R ∧ Rel R (.obj 0) r' ∧ (∀ p p' q, R p q → R p' q → p = p')
    ∧ (∀ p q q', R p q → R p q' → q = q') :=
  C46_once_partial (exOptions 1) dataConsumer cyHeap (.obj 0) (cyStreamable 1 _)
    (by
      have : ∀ p x, cyHeap p = some x → ∀ q, Ref.obj q ∈ slots x → ∃ y, cyHeap q = some y :=
        cyHeap_cases (by intro q hq; simp [slots] at hq; subst hq; exact ⟨_, rfl⟩)
          (by intro q hq; simp [slots] at hq; rcases hq with rfl | rfl <;> exact ⟨_, rfl⟩)
      exact fun p x q hp hq => this p x hp q hq)
    2 0 (cyHeap_cases (by omega) (by omega))
    (by
      have : ∀ p x, cyHeap p = some x → ∀ es, x = .map es → ∀ e ∈ es, ∃ t, den cyHeap 0 e.1 = some t :=
        cyHeap_cases (by simp) (by rintro es ⟨⟩; simp [den])
      exact fun p es e hp he => this p _ hp es rfl e he)
    (fun p e => by cases e; exact ⟨_, rfl⟩) (by decide)
    (.inl (by
      have : ∀ p x, cyHeap p = some x → ∀ es, x = .map es → ∀ e ∈ es, ∃ a, e.1 = Ref.atom a := cyHeap_cases (by simp) (by rintro es ⟨⟩; simp)
      exact fun p es hp e he => this p _ hp es rfl e he))

/-- **C46** (partial) Every reference in a stream is the number of an item before it. -/
theorem C46_backward_partial (o : Options) (k : Consumer) (h : Heap) (fuel : Nat) (r : Ref) (e : Ev) (hs : Streamable o k h)
    (he : stream o k h fuel r = .ok e) : ∃ n, walk 0 e = some n := by
  obtain ⟨x, h1, rfl⟩ := Out.map_ok he
  obtain ⟨_, h2, _⟩ := emit_walk hs fuel _ r { values := [], refIndex := 0 } x.1 x.2 (by intro e he; simp at he) h1
  exact ⟨_, h2⟩
example : ∃ e n, stream (exOptions 1) dataConsumer cyHeap 4 (.obj 0) = .ok e ∧ walk 0 e = some n :=
  ⟨.arr [.map [.add (.str (txt "up")), .ref 0, .add (.str (txt "me")), .ref 1], .add (.str (txt "x")), .ref 1], 5, by rfl, by rfl⟩

/-! ## What does not hold -/

def refHeap : Heap
  | 0 => some (.arr [.obj 1, .obj 2])
  | 1 => some (.arr [.atom (.str (txt "a"))])
  | 2 => some (.map [(.atom (.str (txt "__ref")), .atom (.int 1))])
  | _ => none

/-- **C46** does not hold: a map with one entry whose key is that of references and whose value is an integer is passed on as a reference.
Here it is replaced by the array before it; if there is no such item the collector panics. -/
theorem C46_violated_ref :
    (∃ h' r', transfer (exOptions 0) basicConsumer none refHeap 9 (.obj 0) = .ok (h', r')
      ∧ den h' 9 r' = some (.arr [.arr [.str (txt "a")], .arr [.str (txt "a")]]))
    ∧ den refHeap 9 (.obj 0) = some (.arr [.arr [.str (txt "a")], .map [(.str (txt "__ref"), .int 1)]])
    ∧ transfer (exOptions 0) basicConsumer none refHeap 9 (.obj 2) = .panic :=
  ⟨⟨_, _, rfl, rfl⟩, rfl, rfl⟩

/-- **C46** does not hold without de-duplication: a cycle is followed for ever. -/
theorem C46_violated_cycle (k : Consumer) (fuel : Nat) : stream (exOptions 0) k cyHeap fuel (.obj 0) = .deep := by
  have hl : level (exOptions 0) k = 0 := by simp [level, exOptions]
  have key : ∀ fuel s, emit (exOptions 0) k cyHeap fuel 0 s (.obj 0) = .deep ∧ emit (exOptions 0) k cyHeap fuel 0 s (.obj 1) = .deep := by
    intro fuel
    induction fuel with
    | zero => intro s; exact ⟨rfl, rfl⟩
    | succ n ih =>
      intro s
      rw [emit_obj (cyStreamable 0 k) n 0 s 0 rfl, emit_obj (cyStreamable 0 k) n 0 s 1 rfl]
      have hp : plainMap k [(Ref.atom (.str (txt "up")), Ref.obj 0), (.atom (.str (txt "me")), .obj 1)] = true := by simp [plainMap, stringKeys]
      constructor
      · simp only [process, if_true, body, emitAll, (ih _).2, Out.map]
      · simp only [process, if_true, body, hp, emitEntries]
        have : emit (exOptions 0) k cyHeap n 0 (s.inc 1) (.atom (.str (txt "up"))) = .ok ((s.inc 1).inc 1, .add (.str (txt "up"))) := by
          rw [emit_atom]; simp [emit, emitString, process]
        simp [this, (ih _).1, Out.map]
  simp only [stream, hl, (key fuel _).1, Out.map]

end Verif.Stream
