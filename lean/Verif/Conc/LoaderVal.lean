import Verif.Value.Eq
/-!
# Loaders as values: Equals, HashCode, and the maps that they are made from and turned into
-/
set_option autoImplicit false
namespace Verif.Conc.LoaderVal
open Verif.Value (Val Str WF fold31 sortInts)

/-- A loader and all that it holds at one moment: loader/loader.go:19-37.  `locked` is the type `loader`, the one with a lock.  A finder is given
by its number, as is the creator of namespaces: functions have no content that `Equals` could see.  The namespace that a loader lives
in (`parentNs`) is left out: it isn't looked at by anything here.  That the namespaces are a tree is a simplification: a creator could
answer the loader itself, and `Equals` would then not return. -/
inductive T where
  | map (name : Str) (entries : List (Val × Val))
  | locked (name : Str) (entries : List (Val × Val)) (namespaces : List (Str × T)) (finder creator : Option Nat)
  | child (own parent : T)

/-- `hashMap.Get` with a string key, for a map whose keys are strings: internal/map.go:413-423. -/
def look (n : Str) (ns : List (Str × T)) : Option T := (ns.find? fun e => e.1 = n).map (·.2)

/-- `hashMap.Get`: internal/map.go:413-423. -/
def lookVal (k : Val) (es : List (Val × Val)) : Option Val := (es.find? fun e => Value.eq k e.1).map (·.2)

mutual
/-- `Equals`: `mapLoader` at loader.go:115-120, `loader` at 209-214 and `childLoader` at 320-325.  A loader of one Go type is never equal
to one of another. -/
def leq : T → T → Bool
  | .map _ es, .map _ es' => Value.eq (.map es) (.map es')
  | .locked _ es ns _ _, .locked _ es' ns' _ _ => Value.eq (.map es) (.map es') && (ns.length == ns'.length && leqNs ns ns')
  | .child o p, .child o' p' => leq o o' && leq p p'
  | _, _ => false

/-- the loop of `hashMap.Equals` over the namespaces: internal/map.go:352-373 -/
def leqNs : List (Str × T) → List (Str × T) → Bool
  | [], _ => true
  | (n, t) :: r, ns' =>
    (match look n ns' with
      | none => false
      | some t' => leq t t') && leqNs r ns'
end

mutual
/-- `HashCode`: loader.go:122-124, 216-218 and 335-337. -/
def lhash : T → BitVec 64
  | .map _ es => Value.hash (.map es)
  | .locked _ es ns _ _ => Value.hash (.map es) * 31 + fold31 (sortInts (nsHashes ns))
  | .child o p => lhash o * 31 + lhash p

/-- the hash codes of the entries of the map of namespaces: internal/map.go (`hashMap.HashCode`) -/
def nsHashes : List (Str × T) → List (BitVec 64)
  | [] => []
  | (n, t) :: r => (Value.hash (.str n) ^^^ lhash t) :: nsHashes r
end

/-- `if vf.Nil == v { v = nil }`: loader.go:232-234. -/
def notNil : Val → Option Val
  | .nil => none
  | v => some v

/-- `Get` of a loader that has no answer from a finder to wait for: loader.go:126-128, 220-236 and 327-333.  `find i k` is what the finder
`i` answers when it is asked; what `Get` then adds to the entries is the subject of C43. -/
def get (find : Nat → Str → Val) : T → Val → Option Val
  | .map _ es, k => lookVal k es
  | .locked _ es _ f _, .str k =>
    match lookVal (.str k) es with
    | some v => notNil v
    | none =>
      match f with
      | none => none
      | some i => notNil (find i k)
  | .locked .., _ => none
  | .child o p, k =>
    match get find p k with
    | some v => some v
    | none => get find o k

/-- `Namespace`: loader.go:143-148, 242-252 (the namespaces that there are) and 343-357.  `mk i n` is what the creator `i` makes. -/
def namespace' (mk : Nat → Str → Option T) : T → Str → Option T
  | .map n es, s => if s = [] then some (.map n es) else none
  | .locked n es ns f c, s =>
    if s = [] then some (.locked n es ns f c)
    else
      match look s ns with
      | some t => some t
      | none =>
        match c with
        | none => none
        | some i => mk i s
  | .child o p, s =>
    if s = [] then some (.child o p)
    else
      match namespace' mk o s, namespace' mk p s with
      | none, pv => pv
      | some v, none => some v
      | some v, some pv => some (.child v pv)

/-- the loop of `load`, loader.go:46-56, over the parts of the name -/
def walk (find : Nat → Str → Val) (mk : Nat → Str → Option T) : T → List Str → Option Val
  | _, [] => none  -- not reached: `strings.Split` gives at least one part
  | t, [k] => get find t (.str k)
  | t, p :: ps =>
    match namespace' mk t p with
    | none => none
    | some t' => walk find mk t' ps

/-- `Name`: loader.go:139-141; a `childLoader` embeds its own loader. -/
def name : T → Str
  | .map n _ => n
  | .locked n .. => n
  | .child o _ => name o

/-- What a map that a loader is made from holds below its keys. -/
inductive D where
  | str (s : Str)
  | map (es : List (Val × Val))
  | nss (ns : List (Str × T))
  | loader (t : T)

/-- the keys `name`, `entries`, `namespaces`, `loader` and `parent` -/
inductive Key where
  | name | entries | namespaces | loader | parent
deriving DecidableEq

abbrev IM := List (Key × D)

def IM.get (m : IM) (k : Key) : Option D := (m.find? fun e => e.1 = k).map (·.2)

/-- `initMap`, which `ExtractInitArg` of the three types answers: loader.go:100-105, 189-193 and 314-319. -/
def initMap : T → IM
  | .map n es => [(.name, .str n), (.entries, .map es)]
  | .locked n es ns _ _ => [(.name, .str n), (.entries, .map es), (.namespaces, .nss ns)]
  | .child o p => [(.loader, .loader o), (.parent, .loader p)]

/-- `Type.New`: loader.go:83-88 with `init`, 95-98.  `none` is the panic of an assertion that fails. -/
def newMap (m : IM) : Option T :=
  match m.get .name, m.get .entries with
  | some (.str n), some (.map es) => some (.map n es)
  | _, _ => none

/-- `MutableType.New`: loader.go:160-165 with `init`, 177-180.  There is no finder and no creator of namespaces.  An empty map of entries
serves as a map of namespaces too, and the other way round; this is left out. -/
def newMut (m : IM) : Option T :=
  match m.get .name, m.get .entries, m.get .namespaces with
  | some (.str n), some (.map es), some (.nss ns) => some (.locked n es ns none none)
  | _, _, _ => none

/-- `ChildType.New`: loader.go:292-297 with `init`, 307-310. -/
def newChild (m : IM) : Option T :=
  match m.get .loader, m.get .parent with
  | some (.loader o), some (.loader p) => some (.child o p)
  | _, _ => none

/-- `New` of the type of the loader: loader.go:83-88, 160-165 and 292-297. -/
def newLike : T → IM → Option T
  | .map .. => newMap
  | .locked .. => newMut
  | .child .. => newChild

/-! ## Specification -/

mutual
/-- Every map has pairwise different keys, and no NaN: what the maps of loaders are. -/
def Fine : T → Prop
  | .map _ es => WF (.map es)
  | .locked _ es ns _ _ => WF (.map es) ∧ (ns.map (·.1)).Nodup ∧ FineNs ns
  | .child o p => Fine o ∧ Fine p

def FineNs : List (Str × T) → Prop
  | [] => True
  | (_, t) :: r => Fine t ∧ FineNs r
end

mutual
/-- No finder and no creator of namespaces anywhere. -/
def Static : T → Prop
  | .map .. => True
  | .locked _ _ ns f c => f = none ∧ c = none ∧ StaticNs ns
  | .child o p => Static o ∧ Static p

def StaticNs : List (Str × T) → Prop
  | [] => True
  | (_, t) :: r => Static t ∧ StaticNs r
end

/-- Both have an answer, and these are equal, or neither has one. -/
def Same : Option Val → Option Val → Prop
  | some v, some w => Value.eq v w = true
  | none, none => True
  | _, _ => False

/-- Both are there, and equal, or neither is there. -/
def SameNs : Option T → Option T → Prop
  | some v, some w => leq v w = true
  | none, none => True
  | _, _ => False

/-! ## Lemmas -/

mutual
/-- A value that is equal to another such exactly when the loaders are equal. -/
def enc : T → Val
  | .map _ es => .arr [.int 0, .map es]
  | .locked _ es ns _ _ => .arr [.int 1, .map es, .map (encNs ns)]
  | .child o p => .arr [.int 2, enc o, enc p]

def encNs : List (Str × T) → List (Val × Val)
  | [] => []
  | (n, t) :: r => (.str n, enc t) :: encNs r
end

theorem encNs_length : ∀ ns : List (Str × T), (encNs ns).length = ns.length
  | [] => rfl
  | (_, _) :: r => by simp [encNs, encNs_length r]

theorem encNs_eq : ∀ ns : List (Str × T), encNs ns = ns.map fun e => (.str e.1, enc e.2)
  | [] => rfl
  | (_, _) :: r => by simp [encNs, encNs_eq r]

theorem find_enc (n : Str) : ∀ ns : List (Str × T), (encNs ns).find? (fun e => Value.eq (.str n) e.1) =
    (ns.find? fun e => e.1 = n).map fun e => (.str e.1, enc e.2)
  | [] => rfl
  | (m, t) :: r => by
    rw [encNs, List.find?_cons, List.find?_cons, find_enc n r]
    have : Value.eq (.str n) (.str m) = decide (m = n) := by
      rw [Value.eq]; by_cases h : n = m
      · simp [h]
      · simp [h, Ne.symm h]
    simp only [this]
    by_cases h : m = n <;> simp [h]

mutual
theorem leq_enc : ∀ t u : T, leq t u = Value.eq (enc t) (enc u)
  | .map _ es, .map _ es' => by
    simp [leq, enc, Value.eq, Value.eqSlice]
  | .locked _ es ns _ _, .locked _ es' ns' _ _ => by
    have := leqNs_enc ns ns'
    simp only [leq, enc, Value.eq, Value.eqSlice, encNs_length, this]
    simp
  | .child o p, .child o' p' => by
    have h1 := leq_enc o o'
    have h2 := leq_enc p p'
    simp only [leq, enc, Value.eq, Value.eqSlice, h1, h2]
    simp
  | .map .., .locked .. => by simp [leq, enc, Value.eq, Value.eqSlice]
  | .map .., .child .. => by simp [leq, enc, Value.eq, Value.eqSlice]
  | .locked .., .map .. => by simp [leq, enc, Value.eq, Value.eqSlice]
  | .locked .., .child .. => by simp [leq, enc, Value.eq, Value.eqSlice]
  | .child .., .map .. => by simp [leq, enc, Value.eq, Value.eqSlice]
  | .child .., .locked .. => by simp [leq, enc, Value.eq, Value.eqSlice]

theorem leqNs_enc : ∀ ns ns' : List (Str × T), leqNs ns ns' = Value.eqMap (encNs ns) (encNs ns')
  | [], _ => by simp [leqNs, encNs, Value.eqMap]
  | (n, t) :: r, ns' => by
    have h := leqNs_enc r ns'
    rw [leqNs, encNs, Value.eqMap, h, find_enc, look]
    congr 1
    cases hf : ns'.find? fun e => e.1 = n with
    | none => rfl
    | some e => exact leq_enc t e.2
end

mutual
theorem fine_enc : ∀ {t : T}, Fine t → WF (enc t)
  | .map _ es, h => by simp only [enc, WF, Value.WFs]; exact ⟨trivial, by simpa [Fine, WF] using h, trivial⟩
  | .locked _ es ns _ _, h => by
    obtain ⟨h1, h2, h3⟩ := h
    simp only [enc, WF, Value.WFs]
    refine ⟨trivial, by simpa [WF] using h1, ⟨fineNs_enc h3, ?_⟩, trivial⟩
    rw [encNs_eq, List.pairwise_map]
    rw [List.Nodup, List.pairwise_map] at h2
    exact h2.imp fun h => by rw [Value.eq]; simpa using h
  | .child o p, h => by
    simp only [enc, WF, Value.WFs]
    exact ⟨trivial, fine_enc h.1, fine_enc h.2, trivial⟩

theorem fineNs_enc : ∀ {ns : List (Str × T)}, FineNs ns → Value.WFes (encNs ns)
  | [], _ => trivial
  | (_, _) :: _, h => ⟨trivial, fine_enc h.1, fineNs_enc h.2⟩
end

theorem fineNs_mem : ∀ {ns : List (Str × T)}, FineNs ns → ∀ e ∈ ns, Fine e.2
  | (_, _) :: _, h, e, he => by
    rcases List.mem_cons.1 he with rfl | he
    · exact h.1
    · exact fineNs_mem h.2 e he

theorem staticNs_mem : ∀ {ns : List (Str × T)}, StaticNs ns → ∀ e ∈ ns, Static e.2
  | (_, _) :: _, h, e, he => by
    rcases List.mem_cons.1 he with rfl | he
    · exact h.1
    · exact staticNs_mem h.2 e he

theorem leqNs_iff (ns' : List (Str × T)) : ∀ ns, leqNs ns ns' = true ↔ ∀ e ∈ ns, ∃ t', look e.1 ns' = some t' ∧ leq e.2 t' = true
  | [] => by simp [leqNs]
  | (n, t) :: r => by
    rw [leqNs, Bool.and_eq_true, leqNs_iff ns' r]
    simp only [List.mem_cons, forall_eq_or_imp]
    apply and_congr_left
    intro _
    cases look n ns' <;> simp

theorem look_mem {n : Str} {ns : List (Str × T)} {t : T} (h : look n ns = some t) : (n, t) ∈ ns := by
  simp only [look, Option.map_eq_some_iff] at h
  obtain ⟨e, h1, rfl⟩ := h
  have := List.find?_some h1
  have hm := List.mem_of_find?_eq_some h1
  simp only [decide_eq_true_eq] at this
  rw [← this]; exact hm

theorem look_of_mem {n : Str} {t : T} : ∀ {ns : List (Str × T)}, (ns.map (·.1)).Nodup → (n, t) ∈ ns → look n ns = some t
  | (m, u) :: r, hd, h => by
    rw [List.map_cons, List.nodup_cons] at hd
    rcases List.mem_cons.1 h with h | h
    · cases h; simp [look]
    · have hne : m ≠ n := by
        rintro rfl
        exact hd.1 (List.mem_map.2 ⟨_, h, rfl⟩)
      have := look_of_mem hd.2 h
      simpa [look, List.find?_cons, hne] using this

theorem nsHashes_eq : ∀ ns : List (Str × T), nsHashes ns = ns.map fun e => Value.hash (.str e.1) ^^^ lhash e.2
  | [] => rfl
  | (_, _) :: r => by simp [nsHashes, nsHashes_eq r]

mutual
theorem hash_leq : ∀ {t u : T}, Fine t → Fine u → leq t u = true → lhash t = lhash u
  | .map _ es, .map _ es', ht, hu, h => by
    simp only [leq] at h
    exact Value.laws.hash _ _ ht hu h
  | .locked _ es ns _ _, .locked _ es' ns' _ _, ht, hu, h => by
    simp only [leq, Bool.and_eq_true, beq_iff_eq] at h
    obtain ⟨h1, h2, h3⟩ := h
    obtain ⟨ht1, ht2, ht3⟩ := ht
    obtain ⟨hu1, hu2, hu3⟩ := hu
    rw [lhash, lhash, Value.laws.hash _ _ ht1 hu1 h1]
    congr 2
    apply Value.sortInts_perm
    rw [nsHashes_eq, nsHashes_eq]
    have hs := hash_leqNs ht3 hu3 h3
    have hp : (ns.map fun e => (e.1, lhash e.2)).Perm (ns'.map fun e => (e.1, lhash e.2)) := by
      have hn : (ns.map fun e => (e.1, lhash e.2)).Nodup := by
        rw [List.Nodup, List.pairwise_map] at ht2 ⊢
        exact ht2.imp fun h h' => h (congrArg (fun x : Str × BitVec 64 => x.1) h')
      exact (List.subperm_of_subset hn hs).perm_of_length_le (by simp [h2])
    have := hp.map fun x => Value.hash (.str x.1) ^^^ x.2
    simpa [List.map_map, Function.comp_def] using this
  | .child o p, .child o' p', ht, hu, h => by
    simp only [leq, Bool.and_eq_true] at h
    rw [lhash, lhash, hash_leq ht.1 hu.1 h.1, hash_leq ht.2 hu.2 h.2]
  | .map .., .locked .., _, _, h => by simp [leq] at h
  | .map .., .child .., _, _, h => by simp [leq] at h
  | .locked .., .map .., _, _, h => by simp [leq] at h
  | .locked .., .child .., _, _, h => by simp [leq] at h
  | .child .., .map .., _, _, h => by simp [leq] at h
  | .child .., .locked .., _, _, h => by simp [leq] at h

theorem hash_leqNs : ∀ {ns ns' : List (Str × T)}, FineNs ns → FineNs ns' → leqNs ns ns' = true →
    ∀ x ∈ ns.map (fun e => (e.1, lhash e.2)), x ∈ ns'.map (fun e => (e.1, lhash e.2))
  | [], _, _, _, _, x, hx => by simp at hx
  | (n, t) :: r, ns', ht, hu, h, x, hx => by
    rw [leqNs, Bool.and_eq_true] at h
    rcases List.mem_cons.1 hx with rfl | hx
    · cases hl : look n ns' with
      | none => rw [hl] at h; simp at h
      | some t' =>
        rw [hl] at h
        have hm := look_mem hl
        exact List.mem_map.2 ⟨(n, t'), hm, by simp only [hash_leq ht.1 (fineNs_mem hu _ hm) h.1]⟩
    · exact hash_leqNs ht.2 hu h.2 x hx
end

end Verif.Conc.LoaderVal
