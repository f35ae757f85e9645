import Verif.Value.Model
/-!
# C105: the maps that loaders share with those who use them
-/
set_option autoImplicit false
namespace Verif.Conc.LoaderShare
open Verif.Value (Val Str)

/-- A map object: what it holds and whether it is frozen (internal/map.go:31-40). -/
structure Obj where
  frozen : Bool
  es : List (Str × Val)

/-- A loader: the object that it keeps its entries in, and its finder (loader/loader.go:19-32).  A `mapLoader` has none. -/
structure Ldr where
  obj : Nat
  finder : Option Nat

/-- Everything that a program holds: map objects and loaders, by number. -/
structure St where
  objs : List Obj
  ldrs : List Ldr

def look (k : Str) (es : List (Str × Val)) : Option Val := (es.find? fun e => e.1 = k).map (·.2)

/-- `hashMap.Put` on a map that isn't frozen: internal/map.go:593-637. -/
def put (k : Str) (v : Val) : List (Str × Val) → List (Str × Val)
  | [] => [(k, v)]
  | (k', v') :: r => if k' = k then (k, v) :: r else (k', v') :: put k v r

def isNil : Val → Bool
  | .nil => true
  | _ => false

/-- `Get`: the answer, and the entries afterwards.  loader.go:126-128 and 220-236 with `add`, 195-207; `find i k` is the answer of the finder
`i`.  The answer of more than one entry (`multipleEntries`) is left out: it is in the model of C43. -/
def getOn (find : Nat → Str → Val) (l : Ldr) (k : Str) (es : List (Str × Val)) : Option Val × List (Str × Val) :=
  match look k es, l.finder with
  | some v, _ => (if isNil v then none else some v, es)
  | none, none => (none, es)
  | none, some i => (if isNil (find i k) then none else some (find i k), put k (find i k) es)

/-- the answer of `Get` of loader `i` -/
def answer (find : Nat → Str → Val) (s : St) (i : Nat) (k : Str) : Option Val :=
  match s.ldrs[i]? with
  | none => none
  | some l =>
    match s.objs[l.obj]? with
    | none => none
    | some o => (getOn find l k o.es).1

/-- What a program can do. -/
inductive Op where
  /-- a map of its own: `vf.MutableMap` -/
  | own (es : List (Str × Val))
  /-- `loader.New(nil, name, es, finder, nil)`: loader.go:58-79 -/
  | new (es : List (Str × Val)) (finder : Option Nat)
  /-- `Type.New` or `MutableType.New` of a map that holds the map object `j` below `entries`: loader.go:95-98 and 177-180.  With the
  object that `initMap` of a loader answers (loader.go:100-105, `entryMap` below), this is `New(ExtractInitArg(l))`. -/
  | make (j : Nat)
  /-- `Get` of loader `i` -/
  | get (i : Nat) (k : Str)
  /-- `Put` on the map object `j`: the program has it because it made it or because it called `ExtractInitArg`, which doesn't copy it -/
  | put (j : Nat) (k : Str) (v : Val)

/-- the map object that `initMap` puts below `entries`: loader.go:100-105 -/
def entryMap (s : St) (i : Nat) : Option Nat := s.ldrs[i]?.map (·.obj)

/-- One operation.  One that panics (`Put` on a frozen map, internal/map.go:594-596), or that is about nothing there is, changes nothing. -/
def step (find : Nat → Str → Val) (s : St) : Op → St
  | .own es => { s with objs := s.objs ++ [⟨false, es⟩] }
  | .new es f => ⟨s.objs ++ [⟨f.isNone, es⟩], s.ldrs ++ [⟨s.objs.length, f⟩]⟩
  | .make j => if j < s.objs.length then { s with ldrs := s.ldrs ++ [⟨j, none⟩] } else s
  | .get i k =>
    match s.ldrs[i]? with
    | none => s
    | some l =>
      match s.objs[l.obj]? with
      | none => s
      | some o => { s with objs := s.objs.set l.obj { o with es := (getOn find l k o.es).2 } }
  | .put j k v =>
    match s.objs[j]? with
    | none => s
    | some o => if o.frozen then s else { s with objs := s.objs.set j { o with es := put k v o.es } }

def run (find : Nat → Str → Val) (s : St) (ops : List Op) : St := ops.foldl (step find) s

def St.init : St := ⟨[], []⟩

/-! ## Lemmas -/

theorem look_put (k : Str) (v : Val) : ∀ es, look k (put k v es) = some v
  | [] => by simp [put, look]
  | (k', v') :: r => by
    unfold put
    split
    · simp [look]
    · rename_i h
      have := look_put k v r
      simpa [look, h] using this

theorem look_put_ne {k k' : Str} (v : Val) (hk : k' ≠ k) : ∀ es, look k (put k' v es) = look k es
  | [] => by simp [put, look, hk]
  | (m, w) :: r => by
    have ih := look_put_ne v hk r
    unfold put
    split
    · rename_i h; subst h; simp [look, hk]
    · by_cases hm : m = k
      · simp [look, hm]
      · simpa [look, hm] using ih

/-- the loaders with an object in use hold it: each loader's object is there, and one that has a finder has one that isn't frozen -/
def Inv (s : St) : Prop := ∀ l ∈ s.ldrs, ∃ o, s.objs[l.obj]? = some o ∧ (o.frozen = true → l.finder = none)

theorem inv_step (find : Nat → Str → Val) {s : St} (h : Inv s) (op : Op) : Inv (step find s op) := by
  have keep : ∀ (j : Nat) (o o' : Obj), s.objs[j]? = some o → o'.frozen = o.frozen →
      ∀ l ∈ s.ldrs, ∃ p, (s.objs.set j o')[l.obj]? = some p ∧ (p.frozen = true → l.finder = none) := by
    intro j o o' hj hf l hl
    obtain ⟨p, hp, hp'⟩ := h l hl
    rw [List.getElem?_set]
    split
    · rename_i he
      subst he
      rw [hp] at hj; cases hj
      have : l.obj < s.objs.length := (List.getElem?_eq_some_iff.1 hp).1
      exact ⟨o', by simp [this], by rw [hf]; exact hp'⟩
    · exact ⟨p, hp, hp'⟩
  cases op with
  | own es =>
    intro l hl
    obtain ⟨o, ho, hf⟩ := h l hl
    exact ⟨o, by simp only [step]; rw [List.getElem?_append_left (List.getElem?_eq_some_iff.1 ho).1]; exact ho, hf⟩
  | new es f =>
    intro l hl
    simp only [step, List.mem_append, List.mem_singleton] at hl
    rcases hl with hl | rfl
    · obtain ⟨o, ho, hf⟩ := h l hl
      exact ⟨o, by simp only [step]; rw [List.getElem?_append_left (List.getElem?_eq_some_iff.1 ho).1]; exact ho, hf⟩
    · exact ⟨⟨f.isNone, es⟩, by simp [step], by simp⟩
  | make j =>
    simp only [step]
    split
    · rename_i hj
      intro l hl
      simp only [List.mem_append, List.mem_singleton] at hl
      rcases hl with hl | rfl
      · exact h l hl
      · exact ⟨s.objs[j], by simp [hj], fun _ => rfl⟩
    · exact h
  | get i k =>
    simp only [step]
    split
    · exact h
    · split
      · exact h
      · rename_i l hl o ho
        exact keep _ o _ ho rfl
  | put j k v =>
    simp only [step]
    split
    · exact h
    · split
      · exact h
      · rename_i o ho _
        exact keep _ o _ ho rfl

theorem inv_run (find : Nat → Str → Val) : ∀ (ops : List Op) {s : St}, Inv s → Inv (run find s ops)
  | [], _, h => h
  | op :: ops, _, h => inv_run find ops (inv_step find h op)

theorem ldrs_step (find : Nat → Str → Val) (s : St) (op : Op) {i : Nat} {l : Ldr} (hl : s.ldrs[i]? = some l) :
    (step find s op).ldrs[i]? = some l := by
  have hi := (List.getElem?_eq_some_iff.1 hl).1
  cases op <;> simp only [step]
  · exact hl
  · rw [List.getElem?_append_left hi]; exact hl
  · split
    · simp only; rw [List.getElem?_append_left hi]; exact hl
    · exact hl
  · split
    · exact hl
    · split <;> exact hl
  · split
    · exact hl
    · split <;> exact hl

/-- A frozen object stays what it is. -/
theorem frozen_step (find : Nat → Str → Val) {s : St} (h : Inv s) (op : Op) {j : Nat} {o : Obj} (ho : s.objs[j]? = some o) (hf : o.frozen = true) :
    (step find s op).objs[j]? = some o := by
  have hj := (List.getElem?_eq_some_iff.1 ho).1
  cases op <;> simp only [step]
  · rw [List.getElem?_append_left hj]; exact ho
  · rw [List.getElem?_append_left hj]; exact ho
  · split <;> exact ho
  · rename_i i k
    split
    · exact ho
    · rename_i l hl
      split
      · exact ho
      · rename_i o' ho'
        simp only [List.getElem?_set]
        split
        · rename_i he
          subst he
          rw [ho] at ho'; cases ho'
          obtain ⟨p, hp, hp'⟩ := h l (List.mem_of_getElem? hl)
          rw [ho] at hp; cases hp
          have hn := hp' hf
          rw [if_pos hj]
          unfold getOn
          rw [hn]
          cases look k o.es <;> rfl
        · exact ho
  · rename_i j' k v
    split
    · exact ho
    · split
      · exact ho
      · rename_i o' ho' hnf
        simp only [List.getElem?_set]
        split
        · rename_i he
          subst he
          rw [ho] at ho'; cases ho'
          exact absurd hf hnf
        · exact ho

theorem frozen_run (find : Nat → Str → Val) : ∀ (ops : List Op) {s : St}, Inv s → ∀ {j : Nat} {o : Obj}, s.objs[j]? = some o → o.frozen = true →
    (run find s ops).objs[j]? = some o
  | [], _, _, _, _, ho, _ => ho
  | op :: ops, _, h, _, _, ho, hf => frozen_run find ops (inv_step find h op) (frozen_step find h op ho hf) hf

theorem ldrs_run (find : Nat → Str → Val) : ∀ (ops : List Op) (s : St) {i : Nat} {l : Ldr}, s.ldrs[i]? = some l → (run find s ops).ldrs[i]? = some l
  | [], _, _, _, hl => hl
  | op :: ops, s, _, _, hl => ldrs_run find ops _ (ldrs_step find s op hl)

theorem inv_init : Inv St.init := fun l hl => by simp [St.init] at hl

/-! ## Theorems -/

/-- What a loader without a finder that `loader.New` made answers never changes: not by loading, not by what a program does to the maps that
it made or was given by `ExtractInitArg`, and not by what loaders that are made from these maps do.  (`ops` is whatever was done before,
`ops'` whatever is done after.) -/
theorem C105_new_is_fixed (find : Nat → Str → Val) (ops ops' : List Op) (es : List (Str × Val)) (k : Str) :
    let s := step find (run find St.init ops) (.new es none)
    let i := (run find St.init ops).ldrs.length
    answer find s i k = ((es.find? fun e => e.1 = k).map (·.2)).filter (fun v => !isNil v) ∧
      answer find (run find s ops') i k = answer find s i k := by
  intro s i
  have hinv : Inv s := inv_step find (inv_run find ops inv_init) _
  have hl : s.ldrs[i]? = some ⟨(run find St.init ops).objs.length, none⟩ := by simp [s, i, step]
  have ho : s.objs[(run find St.init ops).objs.length]? = some ⟨true, es⟩ := by simp [s, step]
  have h1 : answer find s i k = (getOn find ⟨(run find St.init ops).objs.length, none⟩ k es).1 := by
    simp only [answer, hl, ho]
  have h2 : answer find (run find s ops') i k = (getOn find ⟨(run find St.init ops).objs.length, none⟩ k es).1 := by
    simp only [answer, ldrs_run find ops' s hl, frozen_run find ops' hinv ho rfl]
  refine ⟨?_, h2.trans h1.symm⟩
  rw [h1]
  unfold getOn
  have : look k es = (es.find? fun e => e.1 = k).map (·.2) := rfl
  rw [← this]
  cases look k es with
  | none => rfl
  | some v => cases hv : isNil v <;> simp [hv, Option.filter]

example : let find : Nat → Str → Val := fun _ _ => .int 9
    (answer find (run find St.init [.new [([97], .int 1)] none, .put 0 [97] (.int 2), .make 0, .put 0 [98] (.int 3)]) 0 [97]).map (Value.eq (.int 1)) =
      some true := by decide +kernel

/-- A loader with a finder: the program gets its entries from `ExtractInitArg` and can change them.  Then the loader answers with
something else than before, even with what no finder ever found. -/
theorem C105_exposed_violated (find : Nat → Str → Val) (k : Str) (v : Val) (hv : isNil v = false) (ops : List Op) (es : List (Str × Val)) (f : Nat) :
    let s := step find (run find St.init ops) (.new es (some f))
    let i := (run find St.init ops).ldrs.length
    ∃ j, entryMap s i = some j ∧ answer find (step find s (.put j k v)) i k = some v := by
  intro s i
  have hl : s.ldrs[i]? = some ⟨(run find St.init ops).objs.length, some f⟩ := by simp [s, i, step]
  have ho : s.objs[(run find St.init ops).objs.length]? = some ⟨false, es⟩ := by simp [s, step]
  refine ⟨(run find St.init ops).objs.length, by simp [entryMap, hl], ?_⟩
  have hlt := (List.getElem?_eq_some_iff.1 ho).1
  have hl' := ldrs_step find s (.put (run find St.init ops).objs.length k v) hl
  have ho' : (step find s (.put (run find St.init ops).objs.length k v)).objs[(run find St.init ops).objs.length]? = some ⟨false, put k v es⟩ := by
    simp only [step, ho]
    simp [hlt]
  simp only [answer, hl', ho', getOn, look_put, hv]
  rfl

example : let find : Nat → Str → Val := fun _ _ => .int 9
    let s := run find St.init [.new [] (some 0), .get 0 [97]]
    (answer find s 0 [97]).map (Value.eq (.int 9)) = some true ∧ entryMap s 0 = some 0 ∧
    (answer find (step find s (.put 0 [97] (.int 2))) 0 [97]).map (Value.eq (.int 2)) = some true := by decide +kernel

/-- The loader that is made from the init map of another shares its entries: what the first one finds, the other, which has no finder,
answers from then on too. -/
theorem C105_copy_shares_violated (find : Nat → Str → Val) (k : Str) (ops : List Op) (f : Nat) (hf : isNil (find f k) = false) :
    let s := step find (run find St.init ops) (.new [] (some f))
    let i := (run find St.init ops).ldrs.length
    ∃ j, entryMap s i = some j ∧
      let c := step find s (.make j)
      answer find c (i + 1) k = none ∧ answer find (step find c (.get i k)) (i + 1) k = some (find f k) := by
  intro s i
  have hl : s.ldrs[i]? = some ⟨(run find St.init ops).objs.length, some f⟩ := by simp [s, i, step]
  have ho : s.objs[(run find St.init ops).objs.length]? = some ⟨false, []⟩ := by simp [s, step]
  have hlt := (List.getElem?_eq_some_iff.1 ho).1
  refine ⟨(run find St.init ops).objs.length, by simp [entryMap, hl], ?_⟩
  intro c
  have hcl : c.ldrs[i]? = some ⟨(run find St.init ops).objs.length, some f⟩ := ldrs_step find s _ hl
  have hco : c.objs[(run find St.init ops).objs.length]? = some ⟨false, []⟩ := by
    simp only [c, step, if_pos hlt]; exact ho
  have hcl' : c.ldrs[i + 1]? = some ⟨(run find St.init ops).objs.length, none⟩ := by
    have : s.ldrs.length = i + 1 := by simp [s, i, step]
    simp only [c]
    rw [step, if_pos hlt]
    simp [← this]
  have hclt := (List.getElem?_eq_some_iff.1 hco).1
  constructor
  · simp only [answer, hcl', hco]; rfl
  · have h1 := ldrs_step find c (.get i k) hcl'
    have h2 : (step find c (.get i k)).objs[(run find St.init ops).objs.length]? = some ⟨false, [(k, find f k)]⟩ := by
      simp only [step, hcl, hco]
      simp [hclt, getOn, look, put]
    simp only [answer, h1, h2, getOn, look]
    simp [hf]

example : isNil ((fun _ _ => .int 9 : Nat → Str → Val) 0 [97]) = false := rfl

/-- As long as a program puts nothing into the maps, what a loader has answered for a key it answers for ever
(C43 has this for goroutines that load at the same time). -/
theorem C105_untouched (find : Nat → Str → Val) (ops ops' : List Op) (hp : ∀ op ∈ ops', ∀ j k v, op ≠ .put j k v) (i : Nat) (k : Str) (v : Val)
    (h : answer find (run find St.init ops) i k = some v) :
    answer find (run find (step find (run find St.init ops) (.get i k)) ops') i k = some v := by
  generalize run find St.init ops = s at h ⊢
  unfold answer at h
  cases hl : s.ldrs[i]? with
  | none => rw [hl] at h; cases h
  | some l =>
  cases ho : s.objs[l.obj]? with
  | none => simp only [hl, ho] at h; cases h
  | some o =>
  simp only [hl, ho] at h
  have hlt := (List.getElem?_eq_some_iff.1 ho).1
  have hv : look k (getOn find l k o.es).2 = some v ∧ isNil v = false := by
    unfold getOn at h ⊢
    cases hk : look k o.es with
    | some w =>
      simp only [hk] at h ⊢
      cases hn : isNil w <;> simp [hn] at h
      subst h; exact ⟨rfl, hn⟩
    | none =>
      simp only [hk] at h ⊢
      cases hf : l.finder with
      | none => simp [hf] at h
      | some f =>
        simp only [hf] at h ⊢
        cases hn : isNil (find f k) <;> simp [hn] at h
        subst h; exact ⟨look_put .., hn⟩
  have ho1 : (step find s (.get i k)).objs[l.obj]? = some { o with es := (getOn find l k o.es).2 } := by
    simp only [step, hl, ho]
    simp [hlt]
  have key : ∀ (ops : List Op) (s : St), (∀ op ∈ ops, ∀ j k v, op ≠ .put j k v) → ∀ o, s.objs[l.obj]? = some o → look k o.es = some v →
      ∃ o', (run find s ops).objs[l.obj]? = some o' ∧ look k o'.es = some v := by
    intro ops
    induction ops with
    | nil => intro s _ o ho h; exact ⟨o, ho, h⟩
    | cons op ops ih =>
      intro s hp o ho h
      have hlt := (List.getElem?_eq_some_iff.1 ho).1
      have : ∃ o', (step find s op).objs[l.obj]? = some o' ∧ look k o'.es = some v := by
        cases op with
        | own es => exact ⟨o, by simp only [step]; rw [List.getElem?_append_left hlt]; exact ho, h⟩
        | new es f => exact ⟨o, by simp only [step]; rw [List.getElem?_append_left hlt]; exact ho, h⟩
        | make j => exact ⟨o, by simp only [step]; split <;> exact ho, h⟩
        | put j k v => exact absurd rfl (hp _ (List.mem_cons_self ..) j k v)
        | get i' k' =>
          simp only [step]
          split
          · exact ⟨o, ho, h⟩
          · rename_i l' hl'
            split
            · exact ⟨o, ho, h⟩
            · rename_i o' ho'
              simp only [List.getElem?_set]
              split
              · rename_i he
                rw [he, ho] at ho'; cases ho'
                rw [he, if_pos hlt]
                refine ⟨_, rfl, ?_⟩
                simp only [getOn]
                cases hlk : look k' o.es with
                | some w => exact h
                | none =>
                  cases l'.finder with
                  | none => exact h
                  | some f =>
                    have hne : k' ≠ k := by rintro rfl; rw [hlk] at h; cases h
                    simp only
                    rw [look_put_ne _ hne]; exact h
              · exact ⟨o, ho, h⟩
      obtain ⟨o', ho', h'⟩ := this
      exact ih _ (fun op hop => hp op (List.mem_cons_of_mem _ hop)) o' ho' h'
  obtain ⟨o', ho', h'⟩ := key ops' _ hp _ ho1 hv.1
  simp only [answer, ldrs_run find ops' _ (ldrs_step find s (.get i k) hl), ho', getOn, h', hv.2]
  rfl

example : let find : Nat → Str → Val := fun _ _ => .int 9
    (answer find (run find St.init [.new [] (some 0), .make 0]) 0 [97]).map (Value.eq (.int 9)) = some true := by decide +kernel

end Verif.Conc.LoaderShare
