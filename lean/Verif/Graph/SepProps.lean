import Verif.Graph.SepExec
import Verif.Graph.Props
/-! # C97: a call on a map does what it says to that map, and nothing to any other collection -/
set_option autoImplicit false
namespace Verif.Graph

/-- The heaps that programs make -/
def Made (h : Heap) : Prop := ∃ n ops, run n [] ops = some h

theorem Made.sep {h : Heap} (m : Made h) : Sep h := by
  obtain ⟨n, ops, e⟩ := m
  exact run_sep n ops Sep.nil e

theorem content_some {h : Heap} {p : Nat} {l : Entries} (e : content h p = some l) : ∃ f tl es, h[p]? = some (.map f tl es) ∧ Ents h es l := by
  unfold content at e
  split at e
  · rename_i f tl es hp; exact ⟨f, tl, es, hp, ents_iff.1 e⟩
  · cases e

theorem content_of {h : Heap} {p tl : Nat} {f : Bool} {es : List Nat} {l : Entries} (hp : h[p]? = some (.map f tl es)) (x : Ents h es l) : content h p = some l := by
  unfold content; rw [hp]; exact ents_iff.2 x

theorem mutable_map {h : Heap} {p tl : Nat} {f : Bool} {es : List Nat} (hp : h[p]? = some (.map f tl es)) (m : IsMutable h p) : f = false := by
  obtain ⟨o, ho, hf⟩ := m
  rw [hp] at ho; cases ho
  exact Option.some.inj hf

/-- A new map, frozen if the map at `p` is, with these entries; nothing that existed is changed. -/
def IsNewMap (h h' : Heap) (p : Nat) (r : Ref) (l : Entries) : Prop :=
  ∃ c, r = .obj c ∧ h.length ≤ c ∧ content h' c = some l ∧ (IsFrozen h' c ↔ IsFrozen h p) ∧ ∀ (q : Nat) (o : Obj), h[q]? = some o → h'[q]? = some o

theorem isNew {h h' : Heap} {p tl : Nat} {f : Bool} {es : List Nat} {r : Ref} {l : Entries} (hp : h[p]? = some (.map f tl es)) (k : Keeps h h') (n : NewMap h h' r f l) :
    IsNewMap h h' p r l := by
  obtain ⟨c, tl', es', rfl, hc, h1, h2⟩ := n
  refine ⟨c, rfl, hc, content_of h1 h2, ?_, k⟩
  constructor
  · rintro ⟨o, ho, hf⟩
    rw [h1] at ho; cases ho
    exact ⟨_, hp, hf⟩
  · rintro ⟨o, ho, hf⟩
    rw [hp] at ho; cases ho
    exact ⟨_, h1, hf⟩

/-- **C97.**  Whatever calls a program makes (panics recovered from), every map has one entry for each of its keys and no entry is
in two maps. -/
theorem C97_apart {n : Nat} {ops : List Op} {h : Heap} (e : run n [] ops = some h) :
    (∀ (p : Nat) (f : Bool) (tl : Nat) (es : List Nat), h[p]? = some (.map f tl es) → ∃ l, content h p = some l ∧ (l.map (·.1)).Nodup) ∧
    ∀ (p q : Nat) (f f' : Bool) (tl tl' : Nat) (es es' : List Nat), h[p]? = some (.map f tl es) → h[q]? = some (.map f' tl' es') → p ≠ q → ∀ x ∈ es, x ∉ es' := by
  have s := run_sep n ops Sep.nil e
  refine ⟨fun p f tl es hp => ?_, s.apart⟩
  obtain ⟨l, h1, h2⟩ := s.own' hp
  exact ⟨l, content_of hp h1, h2⟩

namespace Ex
/-- A map `{1: 10, 2: 20}`, a frozen copy, a merge of both with a third map -/
def maps : List Op := [.newMap 8, .put 0 1 (.atom 10), .put 0 2 (.atom 20), .frozenCopy (.obj 0), .mapWith 0 3 (.atom 30), .newArr [.obj 1]]
/-- The heap then -/
def mapsHeap : Heap := (run 9 [] maps).getD []
theorem maps_run : run 9 [] maps = some mapsHeap := by decide +kernel
theorem maps_made : Made mapsHeap := ⟨9, maps, maps_run⟩
end Ex

example : content Ex.mapsHeap 0 = some [(1, .atom 10), (2, .atom 20)] ∧ content Ex.mapsHeap 5 = some [(1, .atom 10), (2, .atom 20)] ∧
    content Ex.mapsHeap 8 = some [(1, .atom 10), (2, .atom 20), (3, .atom 30)] ∧ inside Ex.mapsHeap 10 = some (.arr [.obj 1]) := by decide +kernel
example := C97_apart Ex.maps_run

/-- **C97, `Put`** on a mutable map returns; the map then has the value for the key, in the place of the previous one or at the end,
and its other entries as before. -/
theorem C97_put {h : Heap} (m : Made h) {p : Nat} {l : Entries} (e : content h p = some l) (hm : IsMutable h p) (n : Nat) (k : BitVec 64) (r : Ref) :
    ∃ a h', exec n (.put p k r) h = .ok a h' ∧ content h' p = some (upd k r l) ∧ IsMutable h' p := by
  obtain ⟨f, tl, es, hp, x⟩ := content_some e
  cases mutable_map hp hm
  have t : Tri h (exec n (.put p k r)) (fun _ h' => content h' p = some (upd k r l) ∧ IsMutable h' p) (fun _ => False) := by
    refine Tri.bind (mput_eff m.sep hp x k r) ?_ (fun _ z => z)
    rintro _ h' ⟨_, ⟨tl', es', h1, h2⟩, _⟩
    exact Tri.pure ⟨content_of h1 h2, _, h1, rfl⟩
  exact t.returns (Ending.put n p k r)

example := C97_put Ex.maps_made (p := 0) (l := [(1, .atom 10), (2, .atom 20)]) (by decide +kernel) ⟨_, rfl, by decide +kernel⟩ 9 1 (.atom 11)

/-- **C97, `Remove`** on a mutable map returns; the map then has no entry for the key, and its other entries as before. -/
theorem C97_remove {h : Heap} (m : Made h) {p : Nat} {l : Entries} (e : content h p = some l) (hm : IsMutable h p) (n : Nat) (k : BitVec 64) :
    ∃ a h', exec n (.remove p k) h = .ok a h' ∧ content h' p = some (del k l) ∧ IsMutable h' p := by
  obtain ⟨f, tl, es, hp, x⟩ := content_some e
  cases mutable_map hp hm
  have hnd : (l.map (·.1)).Nodup := by
    obtain ⟨l', h1, h2⟩ := m.sep.own' hp
    rw [x.inj h1]; exact h2
  have t : Tri h (exec n (.remove p k)) (fun _ h' => content h' p = some (del k l) ∧ IsMutable h' p) (fun _ => False) := by
    refine Tri.loadMap_is hp ?_
    refine Tri.bind (dropNode_eff x hnd k) ?_ (fun _ z => z)
    rintro es' h' ⟨rfl, y, _⟩
    refine Tri.store_bind (Tri.pure ⟨content_of (get_set hp) (y.cong fun e _ k v hx => ?_), _, get_set hp, rfl⟩)
    rw [get_set_ne (by rintro rfl; rw [hp] at hx; cases hx)]; exact hx
  exact t.returns (Ending.remove n p k)

example := C97_remove Ex.maps_made (p := 0) (l := [(1, .atom 10), (2, .atom 20)]) (by decide +kernel) ⟨_, rfl, by decide +kernel⟩ 9 1

/-- **C97, `PutAll`** on a mutable map returns; the map then has the entries of the argument, which may be the map itself. -/
theorem C97_putAll {h : Heap} (m : Made h) {p q : Nat} {l la : Entries} (e : content h p = some l) (hm : IsMutable h p) (e' : content h q = some la) (n : Nat) :
    ∃ a h', exec n (.putAll p q) h = .ok a h' ∧ content h' p = some (updAll l la) ∧ IsMutable h' p := by
  obtain ⟨f, tl, es, hp, x⟩ := content_some e
  obtain ⟨fq, tq, as, hq, y⟩ := content_some e'
  cases mutable_map hp hm
  have t : Tri h (exec n (.putAll p q)) (fun _ h' => content h' p = some (updAll l la) ∧ IsMutable h' p) (fun _ => False) := by
    refine Tri.bind (mputAll_eff m.sep hp x hq y) ?_ (fun _ z => z)
    rintro _ h' ⟨_, ⟨tl', es', h1, h2⟩, _⟩
    exact Tri.pure ⟨content_of h1 h2, _, h1, rfl⟩
  exact t.returns (Ending.putAll n p q)

example := C97_putAll Ex.maps_made (p := 0) (q := 8) (l := [(1, .atom 10), (2, .atom 20)]) (la := [(1, .atom 10), (2, .atom 20), (3, .atom 30)])
  (by decide +kernel) ⟨_, rfl, by decide +kernel⟩ (by decide +kernel) 9

/-- **C97, `With`**: the map itself when it has the key with an equal value; a new map with the entry otherwise.  (It returns when the
comparison of the values does.) -/
theorem C97_with {h h' : Heap} (m : Made h) {p : Nat} {l : Entries} (e : content h p = some l) {n : Nat} {k : BitVec 64} {r a : Ref} :
    (∀ h', exec n (.mapWith p k r) h ≠ .panic h') ∧
    (exec n (.mapWith p k r) h = .ok a h' → (h' = h ∧ a = .obj p ∧ ∃ v, (k, v) ∈ l ∧ geq n h [] r v = some true) ∨ IsNewMap h h' p a (upd k r l)) := by
  obtain ⟨f, tl, es, hp, x⟩ := content_some e
  refine ⟨fun h' hx => (mapWith_eff n m.sep hp x k r).panic _ hx, fun hx => ?_⟩
  rcases (mapWith_eff n m.sep hp x k r).ok _ _ hx with h1 | ⟨_, h2, h3⟩
  · exact .inl h1
  · exact .inr (isNew hp h2 h3)

example := (C97_with (h' := []) Ex.maps_made (p := 5) (l := [(1, .atom 10), (2, .atom 20)]) (by decide +kernel) (n := 9) (k := 2) (r := .atom 21) (a := .atom 0)).1

/-- **C97, `Without`** returns the map itself when it has no entry for the key, a new map without the entry otherwise. -/
theorem C97_without {h : Heap} (m : Made h) {p : Nat} {l : Entries} (e : content h p = some l) (n : Nat) (k : BitVec 64) :
    ∃ a h', exec n (.without p k) h = .ok a h' ∧ ((h' = h ∧ a = .obj p ∧ k ∉ l.map (·.1)) ∨ IsNewMap h h' p a (del k l)) := by
  obtain ⟨f, tl, es, hp, x⟩ := content_some e
  obtain ⟨a, h', h1, h2⟩ := (without_eff n m.sep hp x k).returns (Ending.without n p k)
  refine ⟨a, h', h1, h2.imp_right fun h3 => isNew hp h3.2.1 h3.2.2⟩

example := C97_without Ex.maps_made (p := 5) (l := [(1, .atom 10), (2, .atom 20)]) (by decide +kernel) 9 1

/-- **C97, `Merge`** returns the map itself when the argument is empty or the map itself, the argument when the map is empty, and a new
map with the entries of both otherwise. -/
theorem C97_merge {h : Heap} (m : Made h) {p q : Nat} {l la : Entries} (e : content h p = some l) (e' : content h q = some la) (n : Nat) :
    ∃ a h', exec n (.merge p q) h = .ok a h' ∧
      ((h' = h ∧ a = .obj p ∧ (la = [] ∨ p = q)) ∨ (h' = h ∧ a = .obj q ∧ l = []) ∨ IsNewMap h h' p a (updAll l la)) := by
  obtain ⟨f, tl, es, hp, x⟩ := content_some e
  obtain ⟨fq, tq, as, hq, y⟩ := content_some e'
  obtain ⟨a, h', h1, h2⟩ := (merge_eff n m.sep hp x hq y).returns (Ending.merge n p q)
  exact ⟨a, h', h1, h2.imp_right fun h3 => h3.imp_right fun h4 => isNew hp h4.2.1 h4.2.2⟩

example := C97_merge Ex.maps_made (p := 0) (q := 8) (l := [(1, .atom 10), (2, .atom 20)]) (la := [(1, .atom 10), (2, .atom 20), (3, .atom 30)])
  (by decide +kernel) (by decide +kernel) 9

/-- **C97, `Map`** returns a new map with the same keys and the mapped values. -/
theorem C97_map {h : Heap} (m : Made h) {p : Nat} {l : Entries} (e : content h p = some l) (n : Nat) (g : BitVec 64 → Ref → Ref) :
    ∃ a h', exec n (.mapMap p g) h = .ok a h' ∧ IsNewMap h h' p a (l.map fun x => (x.1, g x.1 x.2)) := by
  obtain ⟨f, tl, es, hp, x⟩ := content_some e
  obtain ⟨a, h', h1, h2⟩ := (mapMap_eff n m.sep hp x g).returns (Ending.mapMap n p g)
  exact ⟨a, h', h1, isNew hp h2.2.1 h2.2.2⟩

example := C97_map Ex.maps_made (p := 0) (l := [(1, .atom 10), (2, .atom 20)]) (by decide +kernel) 9 fun _ v => .obj (match v with | .atom _ => 1 | .obj q => q)

/-- **C97, other collections.**  A call changes the content of no array, map or binary but its receiver: neither when it returns nor when
it panics.  (`Freeze` sets flags, which are not content.)
Missing: `ThawedCopy` and `WithAll`, for which it does not hold (`C97_frame_violated`). -/
theorem C97_frame_partial {h : Heap} (m : Made h) (n : Nat) (op : Op) (ht : op.thaws = false) {h' : Heap} (e : (∃ a, exec n op h = .ok a h') ∨ exec n op h = .panic h')
    {q : Nat} {i : Inside} (hq : op.receiver ≠ some q) (hi : inside h q = some i) : inside h' q = some i := by
  rcases e with ⟨a, e⟩ | e
  · exact ((exec_after n op h m.sep).ok _ _ e).2 ht q i hq hi
  · exact ((exec_after n op h m.sep).panic _ e).2 ht q i hq hi

/-- `Put` that replaces the value of an entry which an array has as element: neither the array nor the other maps are changed. -/
example : ∃ h', inside h' 10 = some (.arr [.obj 1]) ∧ content h' 0 = some [(1, .atom 11), (2, .atom 20)] := by
  obtain ⟨a, h', e, h1, _⟩ := C97_put Ex.maps_made (p := 0) (l := [(1, .atom 10), (2, .atom 20)]) (by decide +kernel) ⟨_, rfl, by decide +kernel⟩ 9 1 (.atom 11)
  exact ⟨h', C97_frame_partial Ex.maps_made 9 (.put 0 1 (.atom 11)) rfl (.inl ⟨a, e⟩) (by decide) (by decide +kernel), h1⟩

/-- `ThawedCopy` of an array that has an entry of a map as element changes the map: its value for the key becomes a copy.  This
happens to a frozen map too. -/
theorem C97_frame_violated : ∃ (h h' : Heap) (a : Ref) (p : Nat), Made h ∧ exec 9 (.thawedCopy (.obj p)) h = .ok a h' ∧
    ∃ q, q ≠ p ∧ IsFrozen h q ∧ content h q = some [(1, .obj 0)] ∧ content h' q = some [(1, .obj 6)] :=
  ⟨(run 9 [] [.values [], .emptyMap, .mapWith 1 1 (.obj 0), .newArr [.obj 2]]).getD [],
    (run 9 [] [.values [], .emptyMap, .mapWith 1 1 (.obj 0), .newArr [.obj 2], .thawedCopy (.obj 4)]).getD [], .obj 7, 4,
    ⟨9, [.values [], .emptyMap, .mapWith 1 1 (.obj 0), .newArr [.obj 2]], by decide +kernel⟩, rfl, 3, by decide, ⟨_, rfl, rfl⟩, by decide +kernel, by decide +kernel⟩

end Verif.Graph
