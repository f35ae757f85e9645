import Verif.Live.Lemmas
set_option autoImplicit false
set_option linter.unusedVariables false
set_option linter.unusedSimpArgs false
namespace Verif.Live

/-- Nothing that was there is changed. -/
def Ext (h h' : Heap) : Prop := ∀ (p : Nat) (o : Obj), h[p]? = some o → h'[p]? = some o

theorem Ext.rfl {h : Heap} : Ext h h := fun _ _ e => e
theorem Ext.trans {a b c : Heap} (x : Ext a b) (y : Ext b c) : Ext a c := fun p o e => y p o (x p o e)
theorem Ext.push {h : Heap} (o : Obj) : Ext h (h ++ [o]) := fun p o' e => by
  rw [List.getElem?_append_left (List.getElem?_eq_some_iff.1 e).1]; exact e
theorem Ext.keeps {h h' : Heap} (x : Ext h h') : Keeps h h' := fun p es e => x p _ e

theorem mapHeap_ext {f : Ref → Heap → Option (Ref × Heap)} (hf : ∀ r h x, f r h = some x → Ext h x.2) :
    ∀ (rs : List Ref) (h : Heap) (x : List Ref × Heap), mapHeap f rs h = some x → Ext h x.2
  | [], h, x, e => by cases e; exact .rfl
  | r :: rs, h, x, e => by
    simp only [mapHeap, Option.bind_eq_some_iff, Option.map_eq_some_iff] at e
    obtain ⟨y, e1, z, e2, rfl⟩ := e
    exact (hf _ _ _ e1).trans (mapHeap_ext hf rs y.2 z e2)

theorem copy_ext (fr : Bool) : ∀ (n : Nat) (r : Ref) (h : Heap) (x : Ref × Heap), copy fr n r h = some x → Ext h x.2
  | n, .atom i, h, x, e => by cases n <;> (cases e; exact .rfl)
  | n, .type p, h, x, e => by cases n <;> (cases e; exact .rfl)
  | 0, .obj p, h, x, e => by cases e
  | n + 1, .obj p, h, x, e => by
    simp only [copy] at e
    cases ho : h[p]? with
    | none => rw [ho] at e; cases e
    | some o =>
      rw [ho] at e
      dsimp only at e
      split at e
      · cases e; exact .rfl
      · simp only [Option.map_eq_some_iff] at e
        obtain ⟨y, e1, rfl⟩ := e
        exact (mapHeap_ext (copy_ext fr n) _ _ _ e1).trans (.push _)

theorem Has.ext {h h' : Heap} (hk : Ext h h') {r : Ref} {t : Tree} (ht : Has h r t) : Has h' r t := by
  refine Has.rec (motive_1 := fun r t _ => Has h' r t) (motive_2 := fun rs ts _ => HasAll h' rs ts) (fun i => .atom i) ?_ ?_ .nil ?_ ht
  · intro p o ts e _ ih; exact .obj (hk _ _ e) ih
  · intro p o ts e _ ih; exact .type (hk _ _ e) ih
  · intro r rs t ts _ _ i1 i2; exact .cons i1 i2

theorem HasAll.ext {h h' : Heap} (hk : Ext h h') : ∀ {rs : List Ref} {ts : List Tree}, HasAll h rs ts → HasAll h' rs ts
  | _, _, .nil => .nil
  | _, _, .cons a b => .cons (a.ext hk) (b.ext hk)

theorem SolidTypes.ext {h h' : Heap} (hk : Ext h h') {r : Ref} (hs : SolidTypes h r) : SolidTypes h' r := by
  induction hs with
  | atom i => exact .atom i
  | type a => exact .type (a.keeps hk.keeps)
  | frozen a => exact .frozen (a.keeps hk.keeps)
  | mutable e _ ih => exact .mutable (hk _ _ e) ih

theorem mapHeap_solid {f : Ref → Heap → Option (Ref × Heap)} (hx : ∀ r h x, f r h = some x → Ext h x.2)
    (hf : ∀ r h x, f r h = some x → SolidTypes h r → Solid x.2 x.1 ∧ ∀ t, Has h r t → Has x.2 x.1 t) :
    ∀ (rs : List Ref) (h : Heap) (x : List Ref × Heap), mapHeap f rs h = some x → (∀ r ∈ rs, SolidTypes h r) →
      (∀ r ∈ x.1, Solid x.2 r) ∧ ∀ ts, HasAll h rs ts → HasAll x.2 x.1 ts
  | [], h, x, e, _ => by
    cases e
    exact ⟨fun r hr => (nomatch hr), fun ts ht => ht⟩
  | r :: rs, h, x, e, hs => by
    simp only [mapHeap, Option.bind_eq_some_iff, Option.map_eq_some_iff] at e
    obtain ⟨y, e1, z, e2, rfl⟩ := e
    obtain ⟨a1, a2⟩ := hf _ _ _ e1 (hs _ (.head _))
    have x1 := hx _ _ _ e1
    have x2 := mapHeap_ext hx _ _ _ e2
    obtain ⟨b1, b2⟩ := mapHeap_solid hx hf rs y.2 z e2 fun r hr => (hs r (.tail _ hr)).ext x1
    refine ⟨fun r hr => ?_, fun ts ht => ?_⟩
    · rcases List.mem_cons.1 hr with rfl | hr
      · exact a1.keeps x2.keeps
      · exact b1 r hr
    · cases ht with
      | cons h1 h2 => exact .cons ((a2 _ h1).ext x2) (b2 _ (h2.ext x1))

theorem copy_solid : ∀ (n : Nat) (r : Ref) (h : Heap) (x : Ref × Heap), copy true n r h = some x → SolidTypes h r →
    Solid x.2 x.1 ∧ ∀ t, Has h r t → Has x.2 x.1 t
  | n, .atom i, h, x, e, hs => by cases n <;> (cases e; exact ⟨.atom i, fun t ht => ht⟩)
  | n, .type p, h, x, e, .type hs => by cases n <;> (cases e; exact ⟨hs, fun t ht => ht⟩)
  | 0, .obj p, h, x, e, hs => by cases e
  | n + 1, .obj p, h, x, e, hs => by
    simp only [copy] at e
    cases ho : h[p]? with
    | none => rw [ho] at e; cases e
    | some o =>
      rw [ho] at e
      simp only [Bool.true_and] at e
      split at e
      · rename_i hf
        cases e
        cases hs with
        | frozen a => exact ⟨a, fun t ht => ht⟩
        | mutable e' _ => rw [ho] at e'; cases e'; cases hf
      · rename_i hf
        simp only [Option.map_eq_some_iff] at e
        obtain ⟨y, e1, rfl⟩ := e
        cases hs with
        | frozen a => cases a with | obj e' _ => rw [ho] at e'; cases e'; simp at hf
        | mutable e' he =>
          rw [ho] at e'; cases e'
          obtain ⟨a1, a2⟩ := mapHeap_solid (copy_ext true n) (copy_solid n) _ _ _ e1 he
          have hx := Ext.push (h := y.2) ⟨true, y.1⟩
          have hy : (y.2 ++ [(⟨true, y.1⟩ : Obj)])[y.2.length]? = some ⟨true, y.1⟩ := by simp
          refine ⟨.obj hy fun e he => (a1 e he).keeps hx.keeps, fun t ht => ?_⟩
          cases ht with
          | obj e2 h2 => rw [ho] at e2; cases e2; exact .obj hy ((a2 _ h2).ext hx)

/-! ## Maps -/

section
variable {V : Type}
open HMap (World Node findChain mget getNode getMap tblGet slot)

theorem findChain_congr (o o' : HMap.KeyOps Ref) (w : World Ref V) (k : Ref) (hk : ∀ nd ∈ w.nodes, o.eq k nd.key = o'.eq k nd.key) :
    ∀ (f : Nat) (pp p : Option Nat), @findChain Ref V o k f pp p w = @findChain Ref V o' k f pp p w
  | f, pp, none => by cases f <;> rfl
  | 0, pp, some p => rfl
  | f + 1, pp, some p => by
    simp only [findChain, M.bind_run, getNode]
    cases hn : w.nodes[p]? with
    | none => rfl
    | some nd =>
      dsimp only
      rw [hk nd (List.mem_of_getElem? hn)]
      split
      · rfl
      · exact findChain_congr o o' w k hk f _ _

theorem mget_congr (o o' : HMap.KeyOps Ref) (w : World Ref V) (k : Ref) (hh : o.hash k = o'.hash k) (hk : ∀ nd ∈ w.nodes, o.eq k nd.key = o'.eq k nd.key)
    (m : Nat) : @mget Ref V o m k w = @mget Ref V o' m k w := by
  simp only [mget, M.bind_run, getMap]
  cases hm : w.maps[m]? with
  | none => rfl
  | some g =>
    dsimp only
    split
    · rfl
    · simp only [M.bind_run, tblGet, hh]
      cases ht : g.table[slot g.table.length (o'.hash k)]? with
      | none => rfl
      | some hd =>
        simp only [HMap.fuel, findChain_congr o o' w k hk]
end

end Verif.Live
