import Verif.Pcore.Names
import Verif.Pcore.NameSpec
import Verif.Pcore.TokenProps
import Verif.Text.TokenProps
import Verif.Alias.DeclareProps
/-!
# Names in pcore expressions: lemmas
-/
set_option autoImplicit false
set_option linter.unusedVariables false
set_option linter.unusedSimpArgs false
set_option linter.unusedSectionVars false
namespace Verif.Pcore
open Verif.Value (Str)
open Verif.Text
open Verif.HMap (KeyOps LawfulKey)
open Verif.HMap.Spec (insertAll)
open Verif.Alias

theorem nameChar_lt {c : Nat} (h : NameChar c) : c < 128 ∧ c ≠ 58 ∧ c ≠ 46 ∧ isId c = true := by
  unfold NameChar at h
  have : isId c = true := by
    unfold isId isIdStart
    rcases h with h | h | h <;> simp [h]
  refine ⟨?_, ?_, ?_, this⟩ <;> (unfold isLetter isUpper isLower isDigit at h; simp at h; omega)

theorem upper_bounds {c : Nat} : isUpper c = true ↔ 65 ≤ c ∧ c ≤ 90 := by unfold isUpper; simp

theorem pcoreName_one (s : Seg) : pcoreName [s] = s.1 :: s.2 := by simp [pcoreName, List.intercalate]
theorem pcoreName_cons (s r : Seg) (rs : List Seg) : pcoreName (s :: r :: rs) = s.1 :: s.2 ++ 58 :: 58 :: pcoreName (r :: rs) := by
  simp [pcoreName, List.intercalate]
theorem dgoName_one (s : Seg) : dgoName [s] = (s.1 + 32) :: s.2 := by simp [dgoName, List.intercalate]
theorem dgoName_cons (s r : Seg) (rs : List Seg) : dgoName (s :: r :: rs) = (s.1 + 32) :: s.2 ++ 46 :: dgoName (r :: rs) := by
  simp [dgoName, List.intercalate]

theorem ascii_encode {c : Nat} (h : c < 128) : encode c = [UInt8.ofNat c] := by rw [encode, if_pos h]
theorem ascii_textOf : ∀ {cs : List Nat}, (∀ c ∈ cs, c < 128) → textOf cs = cs.map UInt8.ofNat
  | [], _ => rfl
  | c :: cs, h => by
    rw [textOf_cons, ascii_encode (h c (by simp)), ascii_textOf fun x hx => h x (by simp [hx])]; rfl
theorem ofNat_inj {a b : Nat} (ha : a < 128) (hb : b < 128) (h : UInt8.ofNat a = UInt8.ofNat b) : a = b := by
  have := congrArg UInt8.toNat h
  simp at this
  omega
theorem ascii_inj : ∀ {as bs : List Nat}, (∀ c ∈ as, c < 128) → (∀ c ∈ bs, c < 128) → as.map UInt8.ofNat = bs.map UInt8.ofNat → as = bs
  | [], [], _, _, _ => rfl
  | [], _ :: _, _, _, h => by cases h
  | _ :: _, [], _, _, h => by cases h
  | a :: as, b :: bs, h1, h2, h => by
    simp only [List.map_cons, List.cons.injEq] at h
    rw [ofNat_inj (h1 a (by simp)) (h2 b (by simp)) h.1, ascii_inj (fun c hc => h1 c (by simp [hc])) (fun c hc => h2 c (by simp [hc])) h.2]

theorem seg_ascii {s : Seg} (h : s.Ok) : ∀ c ∈ s.1 :: s.2, c < 128 ∧ c ≠ 58 ∧ c ≠ 46 := by
  intro c hc
  rcases List.mem_cons.1 hc with rfl | hc
  · have := upper_bounds.1 h.1; omega
  · have := nameChar_lt (h.2 c hc); exact ⟨this.1, this.2.1, this.2.2.1⟩
theorem seg_ascii' {s : Seg} (h : s.Ok) : ∀ c ∈ (s.1 + 32) :: s.2, c < 128 ∧ c ≠ 58 ∧ c ≠ 46 ∧ isId c = true := by
  intro c hc
  rcases List.mem_cons.1 hc with rfl | hc
  · have := upper_bounds.1 h.1
    refine ⟨by omega, by omega, by omega, ?_⟩
    unfold isId isIdStart isLetter isLower; simp; omega
  · exact nameChar_lt (h.2 c hc)

theorem pcore_ascii : ∀ {segs : List Seg}, (∀ s ∈ segs, s.Ok) → ∀ c ∈ pcoreName segs, c < 128
  | [], _ => by simp [pcoreName, List.intercalate]
  | [s], h => by rw [pcoreName_one]; exact fun c hc => (seg_ascii (h s (by simp)) c hc).1
  | s :: r :: rs, h => by
    intro c hc
    rw [pcoreName_cons] at hc
    rcases List.mem_append.1 hc with hc | hc
    · exact (seg_ascii (h s (by simp)) c hc).1
    · simp only [List.mem_cons] at hc
      rcases hc with rfl | rfl | hc
      · omega
      · omega
      · exact pcore_ascii (segs := r :: rs) (fun x hx => h x (List.mem_cons_of_mem _ hx)) c hc
theorem dgo_ascii : ∀ {segs : List Seg}, (∀ s ∈ segs, s.Ok) → ∀ c ∈ dgoName segs, c < 128
  | [], _ => by simp [dgoName, List.intercalate]
  | [s], h => by rw [dgoName_one]; exact fun c hc => (seg_ascii' (h s (by simp)) c hc).1
  | s :: r :: rs, h => by
    intro c hc
    rw [dgoName_cons] at hc
    rcases List.mem_append.1 hc with hc | hc
    · exact (seg_ascii' (h s (by simp)) c hc).1
    · simp only [List.mem_cons] at hc
      rcases hc with rfl | hc
      · omega
      · exact dgo_ascii (segs := r :: rs) (fun x hx => h x (List.mem_cons_of_mem _ hx)) c hc

/-! ## `toDgoName` -/

theorem splitColons_nil : splitColons [] = [[]] := by rw [splitColons]
theorem splitColons_colons (r : Str) : splitColons (58 :: 58 :: r) = [] :: splitColons r := by rw [splitColons]
theorem splitColons_other {b : UInt8} (h : b ≠ 58) (r : Str) {x : Str} {xs : List Str} (hr : splitColons r = x :: xs) :
    splitColons (b :: r) = (b :: x) :: xs := by
  rw [splitColons]
  · rw [hr]
  · exact fun _ hb => absurd hb h
theorem splitColons_append : ∀ (s : Str), (58 : UInt8) ∉ s → ∀ (r : Str) {x : Str} {xs : List Str}, splitColons r = x :: xs →
    splitColons (s ++ r) = (s ++ x) :: xs
  | [], _, r, x, xs, hr => hr
  | b :: s, h, r, x, xs, hr => by
    simp only [List.mem_cons, not_or] at h
    exact splitColons_other (Ne.symm h.1) _ (splitColons_append s h.2 r hr)

theorem no_colon {s : Seg} (h : s.Ok) : (58 : UInt8) ∉ (s.1 :: s.2).map UInt8.ofNat := by
  intro hm
  obtain ⟨c, hc, he⟩ := List.mem_map.1 hm
  have := seg_ascii h c hc
  exact this.2.1 (ofNat_inj this.1 (by omega) (he.trans (by rfl : (58 : UInt8) = UInt8.ofNat 58)))

theorem splitColons_name : ∀ {segs : List Seg}, segs ≠ [] → (∀ s ∈ segs, s.Ok) →
    splitColons ((pcoreName segs).map UInt8.ofNat) = segs.map fun s => (s.1 :: s.2).map UInt8.ofNat
  | [], h, _ => absurd rfl h
  | [s], _, h => by
    have := splitColons_append _ (no_colon (h s (by simp))) [] splitColons_nil
    rw [List.append_nil] at this
    rw [pcoreName_one, this]; rfl
  | s :: r :: rs, _, h => by
    have ih := splitColons_name (segs := r :: rs) (by simp) fun x hx => h x (List.mem_cons_of_mem _ hx)
    rw [pcoreName_cons, List.map_append]
    refine (splitColons_append _ (no_colon (h s (by simp))) _ (splitColons_colons _)).trans ?_
    rw [ih, List.append_nil]; rfl

theorem lowerFirst_seg {s : Seg} (h : s.Ok) : lowerFirst ((s.1 :: s.2).map UInt8.ofNat) = some (((s.1 + 32) :: s.2).map UInt8.ofNat) := by
  have hb := upper_bounds.1 h.1
  have h1 : (UInt8.ofNat s.1).toNat = s.1 := by simp; omega
  have h2 : UInt8.ofNat s.1 + 32 = UInt8.ofNat (s.1 + 32) := by
    rw [UInt8.ofNat_add]; rfl
  rw [List.map_cons, lowerFirst, h1, if_pos (by omega), if_pos hb, h2]; rfl

theorem lowerAll_segs : ∀ {segs : List Seg}, (∀ s ∈ segs, s.Ok) →
    lowerAll (segs.map fun s => (s.1 :: s.2).map UInt8.ofNat) = some (segs.map fun s => ((s.1 + 32) :: s.2).map UInt8.ofNat)
  | [], _ => rfl
  | s :: r, h => by
    rw [List.map_cons, lowerAll, lowerFirst_seg (h s (by simp)), lowerAll_segs fun x hx => h x (List.mem_cons_of_mem _ hx)]; rfl

theorem joinDots_segs : ∀ (segs : List Seg), joinDots (segs.map fun s => ((s.1 + 32) :: s.2).map UInt8.ofNat) = (dgoName segs).map UInt8.ofNat
  | [] => rfl
  | [s] => by rw [dgoName_one]; rfl
  | s :: r :: rs => by
    have ih := joinDots_segs (r :: rs)
    rw [dgoName_cons, List.map_append, List.map_cons (a := 46), ← ih]; rfl

theorem toDgoName_name {segs : List Seg} (h : segs ≠ []) (ho : ∀ s ∈ segs, s.Ok) :
    toDgoName (textOf (pcoreName segs)) = some (textOf (dgoName segs)) := by
  rw [toDgoName, ascii_textOf (pcore_ascii ho), splitColons_name h ho, lowerAll_segs ho, Option.map_some, joinDots_segs,
    ascii_textOf (dgo_ascii ho)]

/-! ## Different names -/

theorem split_at {a b x y : List Nat} (ha : 46 ∉ a) (hb : 46 ∉ b) (h : a ++ 46 :: x = b ++ 46 :: y) : a = b ∧ x = y := by
  induction a generalizing b with
  | nil =>
    cases b with
    | nil => exact ⟨rfl, by simpa using h⟩
    | cons c b => simp only [List.nil_append, List.cons_append, List.cons.injEq] at h; rw [← h.1] at hb; simp at hb
  | cons c a ih =>
    cases b with
    | nil => simp only [List.nil_append, List.cons_append, List.cons.injEq] at h; rw [h.1] at ha; simp at ha
    | cons d b =>
      simp only [List.cons_append, List.cons.injEq] at h
      simp only [List.mem_cons, not_or] at ha hb
      obtain ⟨h1, h2⟩ := ih ha.2 hb.2 h.2
      exact ⟨by rw [h.1, h1], h2⟩

theorem no_dot {s : Seg} (h : s.Ok) : 46 ∉ (s.1 + 32) :: s.2 := fun hm => (seg_ascii' h 46 hm).2.2.1 rfl

theorem dgoName_inj : ∀ {a b : List Seg}, a ≠ [] → b ≠ [] → (∀ s ∈ a, s.Ok) → (∀ s ∈ b, s.Ok) → dgoName a = dgoName b → a = b
  | [], _, h, _, _, _, _ => absurd rfl h
  | _, [], _, h, _, _, _ => absurd rfl h
  | [s], [r], _, _, _, _, h => by
    simp only [dgoName_one, List.cons.injEq] at h
    obtain ⟨h1, h2⟩ := h
    rw [Prod.ext (by omega : s.1 = r.1) h2]
  | [s], r :: r' :: rs, _, _, hs, hr, h => by
    rw [dgoName_one, dgoName_cons] at h
    exact absurd (h ▸ by simp : (46 : Nat) ∈ (s.1 + 32) :: s.2) (no_dot (hs s (by simp)))
  | s :: s' :: ss, [r], _, _, hs, hr, h => by
    rw [dgoName_one, dgoName_cons] at h
    exact absurd (h ▸ by simp : (46 : Nat) ∈ (r.1 + 32) :: r.2) (no_dot (hr r (by simp)))
  | s :: s' :: ss, r :: r' :: rs, _, _, hs, hr, h => by
    rw [dgoName_cons, dgoName_cons] at h
    obtain ⟨h1, h2⟩ := split_at (no_dot (hs s (by simp))) (no_dot (hr r (by simp))) h
    simp only [List.cons.injEq] at h1
    rw [Prod.ext (by omega : s.1 = r.1) h1.2, dgoName_inj (by simp) (by simp) (fun x hx => hs x (List.mem_cons_of_mem _ hx))
      (fun x hx => hr x (List.mem_cons_of_mem _ hx)) h2]

/-! ## Name tokens -/

theorem tail_segs {cs : List Nat} (h : NameTail (fun c => isUpper c = true) cs) :
    ∃ s0 rest, (∀ c ∈ s0, NameChar c) ∧ (∀ s ∈ rest, Seg.Ok s) ∧ ∀ c, c :: cs = pcoreName ((c, s0) :: rest) := by
  induction h with
  | nil => exact ⟨[], [], by simp, by simp, fun c => by rw [pcoreName_one]⟩
  | @char d s h hs ih =>
    obtain ⟨s0, rest, h1, h2, h3⟩ := ih
    refine ⟨d :: s0, rest, by simpa using ⟨h, h1⟩, h2, fun c => ?_⟩
    have := h3 d
    cases rest with
    | nil => rw [pcoreName_one] at this ⊢; simp only [this]
    | cons r rs => rw [pcoreName_cons] at this ⊢; simp only [this]; simp
  | @segment d s h hs ih =>
    obtain ⟨s0, rest, h1, h2, h3⟩ := ih
    refine ⟨[], (d, s0) :: rest, by simp, ?_, fun c => ?_⟩
    · intro x hx
      rcases List.mem_cons.1 hx with rfl | hx
      · exact ⟨h, h1⟩
      · exact h2 x hx
    · rw [pcoreName_cons, ← h3 d]; rfl

theorem segs_tail : ∀ (s : Seg) (rest : List Seg), s.Ok → (∀ r ∈ rest, r.Ok) → ∃ cs, pcoreName (s :: rest) = s.1 :: cs ∧ NameTail (fun c => isUpper c = true) cs
  | s, [], h, _ => ⟨s.2, by rw [pcoreName_one], chars_tail h.2 .nil⟩
  | s, r :: rs, h, hr => by
    obtain ⟨cs, h1, h2⟩ := segs_tail r rs (hr r (by simp)) fun x hx => hr x (List.mem_cons_of_mem _ hx)
    refine ⟨s.2 ++ 58 :: 58 :: (r.1 :: cs), by rw [pcoreName_cons, h1]; rfl, chars_tail' h.2 (.segment (hr r (by simp)).1 h2)⟩
where
  chars_tail' : ∀ {cs r : List Nat}, (∀ c ∈ cs, NameChar c) → NameTail (fun c => isUpper c = true) r → NameTail (fun c => isUpper c = true) (cs ++ r)
    | [], _, _, h => h
    | c :: cs, r, hc, h => .char (hc c (by simp)) (chars_tail' (fun x hx => hc x (by simp [hx])) h)
  chars_tail : ∀ {cs : List Nat}, (∀ c ∈ cs, NameChar c) → NameTail (fun c => isUpper c = true) [] → NameTail (fun c => isUpper c = true) cs
    | [], _, h => h
    | c :: cs, hc, h => .char (hc c (by simp)) (chars_tail (fun x hx => hc x (by simp [hx])) h)

theorem number_type {ty : Nat} {s : List Nat} {p : Nat → In → Prop} (h : Number ty s p) : ty ≠ tName := by
  cases h <;> decide

theorem textOf_pcore_inj {a b : List Seg} (ha : a ≠ []) (hb : b ≠ []) (oa : ∀ s ∈ a, s.Ok) (ob : ∀ s ∈ b, s.Ok)
    (h : textOf (dgoName a) = textOf (dgoName b)) : a = b := by
  rw [ascii_textOf (dgo_ascii oa), ascii_textOf (dgo_ascii ob)] at h
  exact dgoName_inj ha hb oa ob (ascii_inj (dgo_ascii oa) (dgo_ascii ob) h)

theorem readable_of_lt {c : Nat} (h : c < 128) : Readable c := by
  unfold Readable Scalar runeError; omega

theorem dgoName_head (s : Seg) (rest : List Seg) : ∃ tl, dgoName (s :: rest) = (s.1 + 32) :: s.2 ++ tl ∧ (rest = [] → tl = []) ∧
    (rest ≠ [] → ∃ m, tl = 46 :: m) := by
  cases rest with
  | nil => exact ⟨[], by rw [dgoName_one, List.append_nil], fun _ => rfl, fun h => absurd rfl h⟩
  | cons r rs => exact ⟨46 :: dgoName (r :: rs), by rw [dgoName_cons], fun h => absurd h (by simp), fun _ => ⟨_, rfl⟩⟩

theorem head_token {s : Seg} (h : s.Ok) {j : In} (hj : Then (fun c _ => isId c = false) j) :
    nextToken (((s.1 + 32) :: s.2).map some ++ j) = .ok (⟨textOf ((s.1 + 32) :: s.2), tIdentifier⟩, j) := by
  rw [C93_tokens]
  refine ⟨[], (s.1 + 32) :: s.2, by simp, by simp, .identifier ?_ (fun c hc => (seg_ascii' h c (List.mem_cons_of_mem _ hc)).2.2.2) hj⟩
  have := upper_bounds.1 h.1
  unfold isIdStart isLetter isLower; simp; omega

theorem colon_iff {s : Seg} {rest : List Seg} (ho : ∀ x ∈ s :: rest, Seg.Ok x) : (58 : UInt8) ∉ textOf (pcoreName (s :: rest)) ↔ rest = [] := by
  rw [ascii_textOf (pcore_ascii ho)]
  cases rest with
  | nil => rw [pcoreName_one]; exact ⟨fun _ => rfl, fun _ => no_colon (ho s (by simp))⟩
  | cons r rs =>
    rw [pcoreName_cons]
    refine ⟨fun h => absurd (List.mem_map.2 ⟨58, by simp, rfl⟩) h, fun h => by cases h⟩

/-! ## Declarations -/

variable {T : Type} [KeyOps T]

mutual
/-- The declarations with their names in dgo -/
def rename : Decl Str T → Decl Str T
  | .mk x inner t => .mk ((toDgoName x).getD []) (renameAll inner) t
def renameAll : List (Decl Str T) → List (Decl Str T)
  | [] => []
  | d :: ds => rename d :: renameAll ds
end

def okName (named : Str → Bool) (x : Str) : Bool := !builtinNames.contains x && (toDgoName x).isSome && !named ((toDgoName x).getD [])

mutual
theorem names_rename : ∀ d : Decl Str T, (rename d).names = d.names.map fun x => (toDgoName x).getD []
  | .mk x inner t => by rw [rename, Decl.names, Decl.names, namesOf_rename inner]; rfl
theorem namesOf_rename : ∀ ds : List (Decl Str T), namesOf (renameAll ds) = (namesOf ds).map fun x => (toDgoName x).getD []
  | [] => by rw [renameAll, namesOf]; rfl
  | d :: ds => by rw [renameAll, namesOf, namesOf, names_rename d, namesOf_rename ds, List.map_append]
end

mutual
theorem pdeclare_eq {named : Str → Bool} {mk : Str → T} {a : AMap Str T} : ∀ (adds : List (T × Str)) (d : Decl Str T),
    pdeclare named mk a adds d = if d.names.all (okName named) then declare mk a adds (rename d) else none
  | adds, .mk x inner t => by
    have ih := fun adds => pdeclareAll_eq (named := named) (mk := mk) (a := a) adds inner
    rw [pdeclare, rename, declare, Decl.names, List.all_cons]
    have hok : okName named x = (!builtinNames.contains x && (toDgoName x).isSome && !named ((toDgoName x).getD [])) := rfl
    rw [hok]
    cases hb : builtinNames.contains x
    · cases hn : toDgoName x with
      | none => simp
      | some n =>
        cases hm : named n
        · simp only [hm, ih, Bool.false_eq_true, if_false, Option.getD_some, Option.isSome_some, Bool.not_false, Bool.and_self, Bool.true_and]
          cases hall : (namesOf inner).all (okName named) <;> simp only [if_true, if_false, Bool.false_eq_true, Option.map_none, ite_self]
        · simp [hm]
    · simp
theorem pdeclareAll_eq {named : Str → Bool} {mk : Str → T} {a : AMap Str T} : ∀ (adds : List (T × Str)) (ds : List (Decl Str T)),
    pdeclareAll named mk a adds ds = if (namesOf ds).all (okName named) then declareAll mk a adds (renameAll ds) else none
  | adds, [] => by rw [pdeclareAll, namesOf, renameAll, declareAll]; rfl
  | adds, d :: ds => by
    rw [pdeclareAll, namesOf, renameAll, declareAll, pdeclare_eq adds d, List.all_append]
    have ih := fun adds => pdeclareAll_eq (named := named) (mk := mk) (a := a) adds ds
    cases d.names.all (okName named)
    · simp
    · simp only [if_true, Bool.true_and]
      cases declare mk a adds (rename d) with
      | none => simp
      | some r => simp only [Option.bind_some, ih]
end

end Verif.Pcore
