import Verif.Print.Model
import Verif.Text.Literal
import Mathlib.Data.List.Perm.Subperm
/-!
# Lemmas about the indenter and about printing
-/
set_option autoImplicit false
set_option linter.unusedVariables false
namespace Verif.Print
open Verif.Value (Str runeLen)
open Verif.Text (decode encode quote runeLen_cons Scalar runeError)

/-! ## Lines -/

def blank (c : Nat) : Bool := c == 32 || c == 9

/-- The lines of a text -/
def lines : List Nat → List (List Nat)
  | [] => [[]]
  | c :: cs =>
    if c = 10 then [] :: lines cs
    else
      match lines cs with
      | [] => [[c]]
      | l :: ls => (c :: l) :: ls

/-- Lines as a text -/
def unlines : List (List Nat) → List Nat
  | [] => []
  | [l] => l
  | l :: ls => l ++ [10] ++ unlines ls

/-- A line without the blanks at its end -/
def trimEnd (l : List Nat) : List Nat := (l.reverse.dropWhile blank).reverse

/-- The text without the blanks at the ends of its lines -/
def trimLines (cs : List Nat) : List Nat := unlines ((lines cs).map trimEnd)

theorem lines_ne_nil (cs : List Nat) : lines cs ≠ [] := by
  cases cs with
  | nil => simp [lines]
  | cons c cs =>
    rw [lines]
    split
    · simp
    · split <;> simp

theorem lines_break (cs ds : List Nat) (h : 10 ∉ cs) : lines (cs ++ 10 :: ds) = cs :: lines ds := by
  induction cs with
  | nil => simp [lines]
  | cons c cs ih =>
    simp only [List.mem_cons, not_or] at h
    rw [List.cons_append, lines, if_neg (fun e => h.1 e.symm), ih h.2]

theorem lines_single (cs : List Nat) (h : 10 ∉ cs) : lines cs = [cs] := by
  induction cs with
  | nil => rfl
  | cons c cs ih =>
    simp only [List.mem_cons, not_or] at h
    rw [lines, if_neg (fun e => h.1 e.symm), ih h.2]

theorem unlines_cons (l : List Nat) {ls : List (List Nat)} (h : ls ≠ []) : unlines (l :: ls) = l ++ [10] ++ unlines ls := by
  cases ls with
  | nil => exact absurd rfl h
  | cons => rfl

theorem trimEnd_blanks (p w : List Nat) (hw : ∀ c ∈ w, blank c = true) : trimEnd (p ++ w) = trimEnd p := by
  unfold trimEnd
  rw [List.reverse_append, List.dropWhile_append_of_pos]
  intro a ha
  exact hw a (List.mem_reverse.mp ha)

theorem trimEnd_keep (p : List Nat) (c : Nat) (hc : blank c = false) : trimEnd (p ++ [c]) = p ++ [c] := by
  unfold trimEnd
  simp [hc]

/-- The result of the loop of `String`, as characters -/
def loopChars (wb : List Nat) : List Nat → List Nat
  | [] => []
  | r :: cs =>
    if r = 32 ∨ r = 9 then loopChars (wb ++ [r]) cs
    else if r = 10 then r :: loopChars [] cs
    else wb ++ r :: loopChars [] cs

theorem encode_blank {r : Nat} (h : r = 32 ∨ r = 9) : encode r = [UInt8.ofNat r] := by
  rcases h with rfl | rfl <;> rfl

theorem stringLoop_chars (cs : List Nat) : ∀ wb : List Nat,
    stringLoop (wb.flatMap encode) cs = (loopChars wb cs).flatMap encode := by
  induction cs with
  | nil => intro wb; rfl
  | cons r cs ih =>
    intro wb
    rw [stringLoop, loopChars]
    split
    · next h =>
      rw [← ih]
      simp only [List.flatMap_append, List.flatMap_cons, List.flatMap_nil, List.append_nil, encode_blank h]
    · split
      · rw [List.flatMap_cons, ← ih]; rfl
      · rw [List.flatMap_append, List.flatMap_cons, ← ih, List.append_assoc]; rfl

/-- The loop removes the blanks at the ends of lines.  `p` is the part of the current line that has been written. -/
theorem loopChars_trim (cs : List Nat) : ∀ p wb : List Nat, 10 ∉ p → (∀ c ∈ wb, blank c = true) → trimEnd p = p →
    p ++ loopChars wb cs = trimLines (p ++ wb ++ cs) := by
  induction cs with
  | nil =>
    intro p wb hp hw ht
    have h10 : 10 ∉ p ++ wb := by
      rw [List.mem_append]
      rintro (h | h)
      · exact hp h
      · have := hw 10 h; simp [blank] at this
    rw [loopChars, List.append_nil, List.append_nil, trimLines, lines_single _ h10, List.map_singleton, unlines,
      trimEnd_blanks _ _ hw, ht]
  | cons r cs ih =>
    intro p wb hp hw ht
    rw [loopChars]
    split
    · next h =>
      rw [ih p (wb ++ [r]) hp ?_ ht]
      · simp
      · intro c hc
        rcases List.mem_append.mp hc with hc | hc
        · exact hw c hc
        · simp only [List.mem_singleton] at hc; subst hc; rcases h with rfl | rfl <;> rfl
    · next h =>
      split
      · next h10 =>
        subst h10
        have hn : 10 ∉ p ++ wb := by
          rw [List.mem_append]
          rintro (h | h)
          · exact hp h
          · have := hw 10 h; simp [blank] at this
        have := ih [] [] (by simp) (by simp) rfl
        simp only [List.nil_append] at this
        rw [this, trimLines, trimLines, lines_break _ _ hn, List.map_cons, unlines_cons _ (by simp [lines_ne_nil]),
          trimEnd_blanks _ _ hw, ht]
        simp
      · next h10 =>
        have hb : blank r = false := by
          simp only [not_or] at h
          simp [blank, h.1, h.2]
        have := ih (p ++ wb ++ [r]) [] ?_ (by simp) (trimEnd_keep _ _ hb)
        · rw [List.append_nil] at this
          simp only [List.append_assoc, List.cons_append, List.nil_append] at this ⊢
          exact this
        · simp only [List.mem_append, List.mem_singleton, not_or]
          refine ⟨⟨hp, ?_⟩, fun e => h10 e.symm⟩
          intro h; have := hw 10 h; simp [blank] at this

theorem stringLoop_trim (cs : List Nat) : stringLoop [] cs = (trimLines cs).flatMap encode := by
  have := stringLoop_chars cs []
  rw [List.flatMap_nil] at this
  rw [this]
  exact congrArg _ (loopChars_trim cs [] [] (by simp) (by simp) rfl)

theorem chars_nil : chars [] = [] := by rw [chars]

theorem chars_append {c : Nat} (hc : Scalar c) (s : Str) : chars (encode c ++ s) = c :: chars s := by
  have h := Verif.Text.decode_encode hc s
  have hne : encode c ++ s ≠ [] := by
    unfold encode
    repeat' split
    all_goals simp
  obtain ⟨b, t, e⟩ := List.exists_cons_of_ne_nil hne
  rw [e, chars, ← e, h.1, h.2, List.drop_left]

theorem chars_text {cs : List Nat} (h : ∀ c ∈ cs, Scalar c) : chars (cs.flatMap encode) = cs := by
  induction cs with
  | nil => exact chars_nil
  | cons c cs ih =>
    rw [List.flatMap_cons, chars_append (h c (by simp)), ih fun c hc => h c (by simp [hc])]

theorem decode_scalar (s : Str) : Scalar (decode s) := by
  by_cases h : s = []
  · subst h; decide
  rcases Verif.Text.str_cases h with ⟨c, r, hc, e, h1, _⟩ | ⟨b, r, e, h1, h2⟩
  · rw [h1]; exact hc
  · rw [h1]; decide

theorem chars_scalar (s : Str) : ∀ c ∈ chars s, Scalar c := by
  fun_induction chars s with
  | case1 => simp
  | case2 b t ih =>
    intro c hc
    rcases List.mem_cons.mp hc with rfl | hc
    · exact decode_scalar _
    · exact ih c hc

theorem lines_mem (cs : List Nat) : ∀ l ∈ lines cs, 10 ∉ l ∧ ∀ c ∈ l, c ∈ cs := by
  induction cs with
  | nil => simp [lines]
  | cons c cs ih =>
    intro l hl
    rw [lines] at hl
    split at hl
    · rcases List.mem_cons.mp hl with rfl | hl
      · simp
      · have := ih l hl
        exact ⟨this.1, fun x hx => List.mem_cons_of_mem _ (this.2 x hx)⟩
    · next h10 =>
      have hne := lines_ne_nil cs
      obtain ⟨m, ms, e⟩ := List.exists_cons_of_ne_nil hne
      rw [e] at hl ih
      dsimp only at hl
      rcases List.mem_cons.mp hl with rfl | hl
      · have := ih m (by simp)
        refine ⟨?_, ?_⟩
        · simp only [List.mem_cons, not_or]; exact ⟨fun e => h10 e.symm, this.1⟩
        · intro x hx
          rcases List.mem_cons.mp hx with rfl | hx
          · simp
          · exact List.mem_cons_of_mem _ (this.2 x hx)
      · have := ih l (List.mem_cons_of_mem _ hl)
        exact ⟨this.1, fun x hx => List.mem_cons_of_mem _ (this.2 x hx)⟩

theorem lines_unlines : ∀ ls : List (List Nat), ls ≠ [] → (∀ l ∈ ls, 10 ∉ l) → lines (unlines ls) = ls
  | [], h, _ => absurd rfl h
  | [l], _, h => lines_single l (h l (by simp))
  | l :: m :: ls, _, h => by
    rw [unlines_cons l (by simp), List.append_assoc, List.singleton_append, lines_break _ _ (h l (by simp)),
      lines_unlines (m :: ls) (by simp) fun x hx => h x (List.mem_cons_of_mem _ hx)]

theorem unlines_lines (cs : List Nat) : unlines (lines cs) = cs := by
  induction cs with
  | nil => rfl
  | cons c cs ih =>
    obtain ⟨m, ms, e⟩ := List.exists_cons_of_ne_nil (lines_ne_nil cs)
    rw [lines]
    split
    · next h10 =>
      subst h10
      rw [unlines_cons _ (lines_ne_nil cs), ih]; rfl
    · rw [e] at ih ⊢
      dsimp only
      cases ms with
      | nil => simp only [unlines] at ih ⊢; rw [ih]
      | cons x xs =>
        rw [unlines_cons _ (by simp)] at ih ⊢
        rw [← ih]; simp

theorem trimEnd_mem {l : List Nat} : ∀ c ∈ trimEnd l, c ∈ l := by
  intro c hc
  unfold trimEnd at hc
  have := List.dropWhile_sublist (l := l.reverse) blank
  exact List.mem_reverse.mp (this.subset (List.mem_reverse.mp hc))

theorem trimEnd_last {l : List Nat} {c : Nat} (h : (trimEnd l).getLast? = some c) : blank c = false := by
  unfold trimEnd at h
  rw [List.getLast?_reverse] at h
  have := List.head?_dropWhile_not blank l.reverse
  rw [h] at this
  simpa using this

theorem trimEnd_self {l : List Nat} (h : ∀ c, l.getLast? = some c → blank c = false) : trimEnd l = l := by
  rcases List.eq_nil_or_concat l with rfl | ⟨p, c, rfl⟩
  · rfl
  · rw [List.concat_eq_append] at h ⊢
    exact trimEnd_keep p c (h c (by simp))

theorem lines_trimLines (cs : List Nat) : lines (trimLines cs) = (lines cs).map trimEnd := by
  refine lines_unlines _ (by simp [lines_ne_nil]) ?_
  intro l hl
  obtain ⟨m, hm, rfl⟩ := List.mem_map.mp hl
  exact fun h => (lines_mem cs m hm).1 (trimEnd_mem _ h)

theorem trimLines_self {cs : List Nat} (h : ∀ l ∈ lines cs, ∀ c, l.getLast? = some c → blank c = false) : trimLines cs = cs := by
  unfold trimLines
  have : (lines cs).map trimEnd = (lines cs).map id := List.map_congr_left fun l hl => trimEnd_self (h l hl)
  rw [this, List.map_id, unlines_lines]

theorem unlines_mem : ∀ {ls : List (List Nat)} {c : Nat}, c ∈ unlines ls → c = 10 ∨ ∃ l ∈ ls, c ∈ l
  | [], c, h => by simp [unlines] at h
  | [l], c, h => .inr ⟨l, by simp, h⟩
  | l :: m :: ls, c, h => by
    rw [unlines_cons l (by simp)] at h
    simp only [List.mem_append, List.mem_singleton] at h
    rcases h with (h | h) | h
    · exact .inr ⟨l, by simp, h⟩
    · exact .inl h
    · rcases unlines_mem h with h | ⟨x, hx, hc⟩
      · exact .inl h
      · exact .inr ⟨x, List.mem_cons_of_mem _ hx, hc⟩

theorem trimLines_scalar {cs : List Nat} (h : ∀ c ∈ cs, Scalar c) : ∀ c ∈ trimLines cs, Scalar c := by
  intro c hc
  rcases unlines_mem hc with rfl | ⟨l, hl, hc⟩
  · decide
  · obtain ⟨m, hm, rfl⟩ := List.mem_map.mp hl
    exact h c ((lines_mem cs m hm).2 c (trimEnd_mem _ hc))

/-! ## AppendIndented -/

/-- The parts of a text between line breaks -/
def splitLines : Str → List Str
  | [] => [[]]
  | b :: t =>
    if b = 10 then [] :: splitLines t
    else
      match splitLines t with
      | [] => [[b]]
      | l :: ls => (b :: l) :: ls

theorem splitLines_ne_nil (s : Str) : splitLines s ≠ [] := by
  cases s with
  | nil => simp [splitLines]
  | cons c cs =>
    rw [splitLines]
    split
    · simp
    · split <;> simp

theorem indentedText_eq (nl s : Str) : indentedText nl s = nl.intercalate (splitLines s) := by
  induction s with
  | nil => simp [indentedText, splitLines, List.intercalate]
  | cons b t ih =>
    obtain ⟨l, ls, e⟩ := List.exists_cons_of_ne_nil (splitLines_ne_nil t)
    rw [indentedText, splitLines]
    split
    · rw [ih, e]; simp [List.intercalate]
    · rw [ih, e]
      cases ls <;> simp [List.intercalate]

/-! ## Values -/

/-- What an object contains -/
def Obj.refs : Obj → List Ref
  | .arr es => es
  | .map es => es.map .obj
  | .entry _ k v => [k, v]
  | .sens _ => []

theorem appendTo_congr {ind : Bool} {f g : Nat → Ref → Option (List Piece)} {o : Obj} (level : Nat)
    (h : ∀ l, ∀ r ∈ o.refs, f l r = g l r) : appendTo ind f level o = appendTo ind g level o := by
  cases o with
  | arr es =>
    simp only [appendTo]
    have : es.map (f (level + 1)) = es.map (g (level + 1)) := List.map_congr_left fun r hr => h (level + 1) r hr
    rw [this]
  | map es =>
    simp only [appendTo]
    rw [List.map_congr_left fun e he => h (level + 1) (.obj e) (List.mem_map_of_mem he)]
  | entry b k v =>
    simp only [appendTo]
    rw [h level k (by simp [Obj.refs]), h level v (by simp [Obj.refs])]
  | sens v => rfl

theorem allSome_isSome {α β : Type} {f : α → Option β} {l : List α} (h : ∀ a ∈ l, (f a).isSome = true) :
    (allSome (l.map f)).isSome = true := by
  induction l with
  | nil => rfl
  | cons a l ih =>
    have ha := h a (by simp)
    obtain ⟨b, hb⟩ := Option.isSome_iff_exists.mp ha
    rw [List.map_cons, hb, allSome, Option.isSome_map]
    exact ih fun a ha => h a (by simp [ha])

theorem appendTo_isSome {ind : Bool} {f : Nat → Ref → Option (List Piece)} {o : Obj} (level : Nat)
    (h : ∀ l, ∀ r ∈ o.refs, (f l r).isSome = true) : (appendTo ind f level o).isSome = true := by
  cases o with
  | arr es =>
    simp only [appendTo, Option.isSome_map]
    exact allSome_isSome fun r hr => h (level + 1) r hr
  | map es =>
    simp only [appendTo, Option.isSome_map]
    exact allSome_isSome fun e he => h (level + 1) (.obj e) (List.mem_map_of_mem he)
  | entry b k v =>
    have h1 := h level k (by simp [Obj.refs])
    have h2 := h level v (by simp [Obj.refs])
    obtain ⟨x, hx⟩ := Option.isSome_iff_exists.mp h1
    obtain ⟨y, hy⟩ := Option.isSome_iff_exists.mp h2
    simp only [appendTo, hx, hy, Option.isSome_some]
  | sens v => rfl

/-- An object that is not sensitive -/
theorem appendValue_obj {isPrint : Nat → Bool} {ind : Bool} {h : Heap} {n : Nat} {seen : List Nat} {level p : Nat} {o : Obj}
    (ho : h[p]? = some o) (hs : ∀ v, o ≠ .sens v) : appendValue isPrint ind h (n + 1) seen level (.obj p) =
      if seen.contains p then some [.text (recursion o)]
      else appendTo ind (appendValue isPrint ind h n (seen ++ [p])) level o := by
  rw [appendValue, ho]
  cases o with
  | sens v => exact absurd rfl (hs v)
  | arr | map | entry => rfl

theorem appendValue_sens {isPrint : Nat → Bool} {ind : Bool} {h : Heap} {n : Nat} {seen : List Nat} {level p : Nat} {v : Ref}
    (ho : h[p]? = some (.sens v)) : appendValue isPrint ind h (n + 1) seen level (.obj p) = some [.text redacted] := by
  rw [appendValue, ho]

/-- Two heaps that agree on a set of objects, but for what sensitive values contain.  The set is closed: an object in it contains
objects of the set only, unless it is sensitive. -/
def AgreeBut (P : Nat → Prop) (h h' : Heap) : Prop :=
  ∀ p, P p → (∃ v v', h[p]? = some (.sens v) ∧ h'[p]? = some (.sens v')) ∨
    ∃ o, h[p]? = some o ∧ h'[p]? = some o ∧ ∀ q, Ref.obj q ∈ o.refs → P q

theorem appendValue_agree {isPrint : Nat → Bool} {ind : Bool} {P : Nat → Prop} {h h' : Heap} (ha : AgreeBut P h h') :
    ∀ (n : Nat) (seen : List Nat) (level : Nat) (r : Ref), (∀ q, r = .obj q → P q) →
      appendValue isPrint ind h n seen level r = appendValue isPrint ind h' n seen level r := by
  intro n
  induction n with
  | zero =>
    intro seen level r hr
    cases r with
    | atom a => cases a <;> simp [appendValue]
    | obj p => simp [appendValue]
  | succ n ih =>
    intro seen level r hr
    cases r with
    | atom a => cases a <;> simp [appendValue]
    | obj p =>
      rcases ha p (hr p rfl) with ⟨v, v', h1, h2⟩ | ⟨o, h1, h2, hq⟩
      · rw [appendValue_sens h1, appendValue_sens h2]
      · by_cases hs : ∀ v, o ≠ .sens v
        · rw [appendValue_obj h1 hs, appendValue_obj h2 hs]
          rw [appendTo_congr level fun l r hr' => ih (seen ++ [p]) l r fun q e => hq q (e ▸ hr')]
        · cases o with
          | sens v => rw [appendValue_sens h1, appendValue_sens h2]
          | arr | map | entry => exact absurd (by simp) hs

/-! ## Self reference -/

/-- All references are to objects. -/
def WF (h : Heap) : Prop := ∀ (p : Nat) (o : Obj), h[p]? = some o → ∀ q, Ref.obj q ∈ o.refs → q < h.length

theorem nodup_length {l : List Nat} {n : Nat} (hn : l.Nodup) (hl : ∀ x ∈ l, x < n) : l.length ≤ n := by
  have : l ⊆ List.range n := fun x hx => List.mem_range.mpr (hl x hx)
  have := List.Subperm.length_le (List.subperm_of_subset hn this)
  simpa using this

theorem appendValue_isSome {isPrint : Nat → Bool} {ind : Bool} {h : Heap} (hw : WF h) :
    ∀ (n : Nat) (seen : List Nat) (level : Nat) (r : Ref), (∀ q, r = .obj q → q < h.length) → seen.Nodup →
      (∀ x ∈ seen, x < h.length) → h.length + 1 ≤ n + seen.length → (appendValue isPrint ind h n seen level r).isSome = true := by
  intro n
  induction n with
  | zero =>
    intro seen level r hr hn hl hf
    have := nodup_length hn hl
    omega
  | succ n ih =>
    intro seen level r hr hn hl hf
    cases r with
    | atom a => cases a <;> simp [appendValue]
    | obj p =>
      have hp := hr p rfl
      have ho : h[p]? = some h[p] := List.getElem?_eq_getElem hp
      by_cases hs : ∀ v, h[p] ≠ .sens v
      · rw [appendValue_obj ho hs]
        split
        · rfl
        · next hns =>
          refine appendTo_isSome level fun l r hr' => ih _ _ _ ?_ ?_ ?_ ?_
          · intro q e; exact hw p _ ho q (e ▸ hr')
          · rw [List.nodup_append]
            refine ⟨hn, by simp, ?_⟩
            intro a ha b hb e
            simp only [List.mem_singleton] at hb
            subst hb; subst e
            exact hns (by simpa using ha)
          · intro x hx
            rcases List.mem_append.mp hx with hx | hx
            · exact hl x hx
            · simp only [List.mem_singleton] at hx; subst hx; exact hp
          · simp only [List.length_append, List.length_singleton]; omega
      · have : ∃ v, h[p] = .sens v := Classical.not_forall.mp hs |>.imp fun v hv => Decidable.of_not_not hv
        obtain ⟨v, hv⟩ := this
        rw [appendValue_sens (ho.trans (congrArg some hv))]
        rfl

/-- More fuel gives the same. -/
theorem allSome_eq {α β : Type} {f g : α → Option β} {l : List α} (h : ∀ a ∈ l, ∀ b, f a = some b → g a = some b) {bs : List β}
    (hb : allSome (l.map f) = some bs) : allSome (l.map g) = some bs := by
  induction l generalizing bs with
  | nil => exact hb
  | cons a l ih =>
    rw [List.map_cons] at hb ⊢
    cases hf : f a with
    | none => rw [hf, allSome] at hb; cases hb
    | some b =>
      rw [hf, allSome, Option.map_eq_some_iff] at hb
      obtain ⟨bs', h1, h2⟩ := hb
      rw [h a (by simp) b hf, allSome, ih (fun a ha => h a (by simp [ha])) h1, Option.map_some, h2]

theorem appendTo_mono {ind : Bool} {f g : Nat → Ref → Option (List Piece)} {o : Obj} {level : Nat} {ps : List Piece}
    (h : ∀ l, ∀ r ∈ o.refs, ∀ ps, f l r = some ps → g l r = some ps) (hp : appendTo ind f level o = some ps) :
    appendTo ind g level o = some ps := by
  cases o with
  | arr es =>
    simp only [appendTo, Option.map_eq_some_iff] at hp ⊢
    obtain ⟨bs, h1, h2⟩ := hp
    exact ⟨bs, allSome_eq (fun r hr b hb => h (level + 1) r hr b hb) h1, h2⟩
  | map es =>
    simp only [appendTo, Option.map_eq_some_iff] at hp ⊢
    obtain ⟨bs, h1, h2⟩ := hp
    exact ⟨bs, allSome_eq (fun e he b hb => h (level + 1) (.obj e) (List.mem_map_of_mem he) b hb) h1, h2⟩
  | entry b k v =>
    simp only [appendTo] at hp ⊢
    split at hp
    · next x y hx hy =>
      rw [h level k (by simp [Obj.refs]) _ hx, h level v (by simp [Obj.refs]) _ hy]
      exact hp
    · cases hp
  | sens v => exact hp

theorem appendValue_mono {isPrint : Nat → Bool} {ind : Bool} {h : Heap} : ∀ (n : Nat) (seen : List Nat) (level : Nat) (r : Ref)
    (ps : List Piece), appendValue isPrint ind h n seen level r = some ps → appendValue isPrint ind h (n + 1) seen level r = some ps := by
  intro n
  induction n with
  | zero =>
    intro seen level r ps hp
    cases r with
    | atom a => cases a <;> simpa [appendValue] using hp
    | obj p => simp [appendValue] at hp
  | succ n ih =>
    intro seen level r ps hp
    cases r with
    | atom a => cases a <;> simpa [appendValue] using hp
    | obj p =>
      cases ho : h[p]? with
      | none => rw [appendValue, ho] at hp; cases hp
      | some o =>
        by_cases hs : ∀ v, o ≠ .sens v
        · rw [appendValue_obj ho hs] at hp ⊢
          split at hp
          · next hc => rw [if_pos hc]; exact hp
          · next hc => rw [if_neg hc]; exact appendTo_mono (fun l r _ ps h => ih _ l r ps h) hp
        · cases o with
          | sens v => rw [appendValue_sens ho] at hp ⊢; exact hp
          | arr | map | entry => exact absurd (by simp) hs

/-! ## Values that do not contain themselves -/

/-- Printing without looking for recursion -/
def plainValue (isPrint : Nat → Bool) (indenting : Bool) (h : Heap) : Nat → Nat → Ref → Option (List Piece)
  | _, _, .atom .nil => some [.text [110, 105, 108]]
  | _, _, .atom (.str s) => some [.text (quote isPrint s)]
  | _, _, .atom (.other s) => some [.text s]
  | 0, _, .obj _ => none
  | n + 1, level, .obj p =>
    match h[p]? with
    | none => none
    | some o => appendTo indenting (plainValue isPrint indenting h n) level o

/-- No object contains itself: objects can be numbered such that each one contains objects with smaller numbers only.  (What sensitive
values contain does not matter.) -/
def Acyclic (h : Heap) (rank : Nat → Nat) : Prop :=
  ∀ (p : Nat) (o : Obj), h[p]? = some o → ∀ q, Ref.obj q ∈ o.refs → rank q < rank p

theorem appendValue_plain {isPrint : Nat → Bool} {ind : Bool} {h : Heap} {rank : Nat → Nat} (ha : Acyclic h rank) :
    ∀ (n : Nat) (seen : List Nat) (level : Nat) (r : Ref), (∀ q, r = .obj q → ∀ x ∈ seen, rank q < rank x) →
      appendValue isPrint ind h n seen level r = plainValue isPrint ind h n level r := by
  intro n
  induction n with
  | zero =>
    intro seen level r hr
    cases r with
    | atom a => cases a <;> simp [appendValue, plainValue]
    | obj p => simp [appendValue, plainValue]
  | succ n ih =>
    intro seen level r hr
    cases r with
    | atom a => cases a <;> simp [appendValue, plainValue]
    | obj p =>
      rw [plainValue]
      cases ho : h[p]? with
      | none => rw [appendValue, ho]
      | some o =>
        by_cases hs : ∀ v, o ≠ .sens v
        · rw [appendValue_obj ho hs, if_neg]
          · refine appendTo_congr level fun l r hr' => ih _ l r ?_
            intro q e x hx
            rcases List.mem_append.mp hx with hx | hx
            · exact Nat.lt_trans (ha p o ho q (e ▸ hr')) (hr p rfl x hx)
            · simp only [List.mem_singleton] at hx; subst hx; exact ha _ o ho q (e ▸ hr')
          · intro hc
            exact absurd (hr p rfl p (by simpa using hc)) (Nat.lt_irrefl _)
        · cases o with
          | sens v => rw [appendValue_sens ho]; rfl
          | arr | map | entry => exact absurd (by simp) hs

end Verif.Print
