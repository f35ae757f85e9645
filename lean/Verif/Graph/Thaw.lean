import Verif.Graph.Copy
/-! # Lemmas about thawed copies -/
set_option autoImplicit false
set_option linter.unusedVariables false
namespace Verif.Graph

/-- All arrays, maps and binaries in the value have addresses from `k` on and are mutable. -/
inductive Fresh (k : Nat) (h : Heap) : Ref → Prop
  | atom (i : BitVec 64) : Fresh k h (.atom i)
  | obj {p : Nat} {o : Obj} : h[p]? = some o → (∀ f, o.flag = some f → f = false ∧ k ≤ p) → (∀ c ∈ o.children, Fresh k h c) →
      Fresh k h (.obj p)

theorem Fresh.mono {k : Nat} {h h' : Heap} (x : Ext h h') {r : Ref} (d : Fresh k h r) : Fresh k h' r := by
  induction d with
  | atom i => exact .atom i
  | obj hp hf _ ih => exact .obj (x.get hp) hf ih

theorem Fresh.reach {k : Nat} {h : Heap} {r : Ref} {q : Nat} (hr : Reach h r q) (d : Fresh k h r) :
    ¬ IsFrozen h q ∧ (IsMutable h q → k ≤ q) := by
  induction hr with
  | here p =>
    cases d with
    | obj hp hf _ =>
      constructor
      · rintro ⟨o, ho, hfo⟩
        rw [hp] at ho; cases ho
        exact absurd (hf _ hfo).1 (by simp)
      · rintro ⟨o, ho, hfo⟩
        rw [hp] at ho; cases ho
        exact (hf _ hfo).2
  | step hp hc _ ih =>
    cases d with
    | obj hp' _ hcs => rw [hp] at hp'; cases hp'; exact ih (hcs _ hc)

theorem thawedCopy_tree (k : Nat) (n : Nat) {r : Ref} {h : Heap} {t : Value.Val} (hk : k ≤ h.length) (e : tree n h r = some t)
    (nf : EntryFree t) :
    ∃ r' h', thawedCopy n r h = .ok r' h' ∧ Ext h h' ∧ tree n h' r' = some t ∧ Fresh k h' r' ∧
      (∀ p, r = .obj p → IsFrozen h p ∨ IsMutable h p → ∃ q, r' = .obj q ∧ h.length ≤ q ∧ IsMutable h' q) := by
  induction n generalizing r h t with
  | zero =>
    cases r with
    | atom i => exact ⟨.atom i, h, rfl, List.prefix_rfl, e, .atom i, fun p e => by cases e⟩
    | obj p => cases e
  | succ n ih =>
    cases r with
    | atom i => exact ⟨.atom i, h, rfl, List.prefix_rfl, e, .atom i, fun p e => by cases e⟩
    | obj p =>
      match hp : h[p]? with
      | none => rw [tree, hp] at e; cases e
      | some o =>
        have e0 := e
        rw [tree_obj n hp] at e
        rw [thawedCopy, M.bind_ok (load_run hp)]
        cases o with
        | arr f es =>
          simp only [Option.map_eq_some_iff] at e
          obtain ⟨ts, e, rfl⟩ := e
          have nf' : ∀ t ∈ ts, EntryFree t := by cases nf; assumption
          obtain ⟨bs, h', e1, x, q, g⟩ := mapEach_tree (f := thawedCopy n) (P := tree n) (P' := tree n) (A := EntryFree)
            (G := Fresh k) (fun _ _ _ _ x => x.tr) (fun _ _ _ _ x => x.tr) (fun _ _ _ x => Fresh.mono x) h
            (fun a h t x ht ha => by
              obtain ⟨r', h', e, x, ht', f, _⟩ := ih (Nat.le_trans hk x.length_le) ht ha
              exact ⟨r', h', e, x, ht', f⟩) List.prefix_rfl e nf'
          refine ⟨.obj h'.length, h' ++ [.arr false bs], ?_, x.trans (Ext.alloc _ _), ?_, ?_, ?_⟩
          · exact (M.bind_ok e1).trans rfl
          · rw [tree_obj n (get_alloc _ _)]
            simp only [Option.map_eq_some_iff]
            exact ⟨ts, mapM_some_imp (fun _ _ _ => (Ext.alloc _ _).tr) q, rfl⟩
          · refine .obj (get_alloc _ _) ?_ (fun c hc => (g c hc).mono (Ext.alloc _ _))
            intro f hf; cases hf
            exact ⟨rfl, Nat.le_trans hk x.length_le⟩
          · exact fun _ _ _ => ⟨_, rfl, x.length_le, _, get_alloc _ _, rfl⟩
        | map f tl es =>
          simp only [Option.map_eq_some_iff] at e
          obtain ⟨ts, e, rfl⟩ := e
          have nf' : ∀ t ∈ ts, EntryFree t.2 := by cases nf; assumption
          obtain ⟨bs, h', e1, x, q, g⟩ := mapEach_tree (f := fun e => do
              let kv ← loadEntry e
              let v' ← thawedCopy n kv.2
              Graph.alloc (.entry kv.1 v')) (P := treeNode n) (P' := treeNode n) (A := fun t => EntryFree t.2)
            (G := fun h b => Fresh k h (.obj b)) (fun _ _ _ _ x => x.trn) (fun _ _ _ _ x => x.trn)
            (fun _ _ _ x => Fresh.mono x) h
            (fun a h t x ht hn => by
              obtain ⟨ky, v, t', ha, hv, rfl⟩ := treeNode_some ht
              obtain ⟨r', h', e, x, ht', f, _⟩ := ih (Nat.le_trans hk x.length_le) hv hn
              refine ⟨h'.length, h' ++ [.entry ky r'], ?_, x.trans (Ext.alloc _ _),
                treeNode_entry (get_alloc _ _) ((Ext.alloc _ _).tr ht'), ?_⟩
              · rw [M.bind_ok (loadEntry_run ha), M.bind_ok e]; rfl
              · refine .obj (get_alloc _ _) (fun f hf => by cases hf) ?_
                intro c hc
                simp only [Obj.children, List.mem_singleton] at hc
                subst hc
                exact f.mono (Ext.alloc _ _)) List.prefix_rfl e nf'
          refine ⟨.obj h'.length, h' ++ [.map false (HMap.tableSizeFor tl) bs], ?_, x.trans (Ext.alloc _ _), ?_, ?_, ?_⟩
          · exact (M.bind_ok e1).trans rfl
          · rw [tree_obj n (get_alloc _ _)]
            simp only [Option.map_eq_some_iff]
            exact ⟨ts, mapM_some_imp (fun _ _ _ => (Ext.alloc _ _).trn) q, rfl⟩
          · refine .obj (get_alloc _ _) ?_ ?_
            · intro f hf; cases hf
              exact ⟨rfl, Nat.le_trans hk x.length_le⟩
            · intro c hc
              simp only [Obj.children, List.mem_map] at hc
              obtain ⟨b, hb, rfl⟩ := hc
              exact (g b hb).mono (Ext.alloc _ _)
          · exact fun _ _ _ => ⟨_, rfl, x.length_le, _, get_alloc _ _, rfl⟩
        | bin f bs =>
          refine ⟨.obj h.length, h ++ [.bin false bs], rfl, Ext.alloc _ _, ?_, ?_, ?_⟩
          · rw [tree_obj n (get_alloc _ _)]; exact e
          · refine .obj (get_alloc _ _) ?_ (by simp [Obj.children])
            intro f hf; cases hf
            exact ⟨rfl, hk⟩
          · exact fun _ _ _ => ⟨_, rfl, Nat.le_refl _, _, get_alloc _ _, rfl⟩
        | entry k v =>
          simp only [Option.map_eq_some_iff] at e
          obtain ⟨t, e, rfl⟩ := e
          cases nf
        | sens v =>
          simp only [Option.map_eq_some_iff] at e
          obtain ⟨t, e, rfl⟩ := e
          have nf' : EntryFree t := by cases nf; assumption
          have noflag : ∀ p', Ref.obj p = .obj p' → ¬ (IsFrozen h p' ∨ IsMutable h p') := by
            rintro _ ⟨⟩ (⟨o', ho', hf'⟩ | ⟨o', ho', hf'⟩) <;> (rw [hp] at ho'; cases ho'; cases hf')
          cases v with
          | atom i =>
            refine ⟨.obj p, h, rfl, List.prefix_rfl, e0, ?_, fun p' e hf => absurd hf (noflag p' e)⟩
            refine .obj hp (fun f hf => by cases hf) ?_
            intro c hc
            simp only [Obj.children, List.mem_singleton] at hc
            subst hc
            exact .atom i
          | obj v =>
            obtain ⟨r', h', e1, x, ht', f, _⟩ := ih hk e nf'
            refine ⟨.obj h'.length, h' ++ [.sens r'], ?_, x.trans (Ext.alloc _ _), ?_, ?_, fun p' e hf => absurd hf (noflag p' e)⟩
            · show (thawedCopy n (.obj v) >>= fun v' => Graph.alloc (.sens v') >>= fun q => pure (Ref.obj q)) h = _
              rw [M.bind_ok e1]; rfl
            · rw [tree_obj n (get_alloc _ _)]
              simp only [Option.map_eq_some_iff]
              exact ⟨t, (Ext.alloc _ _).tr ht', rfl⟩
            · refine .obj (get_alloc _ _) (fun f hf => by cases hf) ?_
              intro c hc
              simp only [Obj.children, List.mem_singleton] at hc
              subst hc
              exact f.mono (Ext.alloc _ _)
        | native i => cases e

end Verif.Graph
