import Verif.Pcore.TokenLemmas
/-!
# C98: how the tokens of pcore expressions are written
-/
set_option autoImplicit false
set_option linter.unusedVariables false
set_option linter.unusedSimpArgs false
namespace Verif.Pcore
open Verif.Value (Str)
open Verif.Text

theorem upper_first (c : Nat) : isUpper c = true ↔ isUpper c = true := Iff.rfl
theorem ident_first (c : Nat) : identStart c = true ↔ (c = 95 ∨ isLower c = true) := by unfold identStart; simp

theorem ptoken_sound (n : Nat) (i : In) (hn : i.length ≤ n) {i' : In} {t : Token} (h : nextTok i = .ok (t, i')) :
    ∃ gap src, Gap gap ∧ i = (gap ++ src).map some ++ i' ∧ PLexeme t src i' := by
  induction n generalizing i with
  | zero =>
    obtain rfl := List.length_eq_zero_iff.1 (Nat.le_zero.1 hn)
    rw [nextTok] at h; cases h; exact ⟨[], [], .nil, rfl, .end⟩
  | succ n ih =>
    cases i with
    | nil => rw [nextTok] at h; cases h; exact ⟨[], [], .nil, rfl, .end⟩
    | cons c u =>
      have hu : u.length ≤ n := by simpa using hn
      cases c with
      | none => rw [nextTok] at h; cases h
      | some r =>
        have here : ∀ {src : List Nat}, some r :: u = src.map some ++ i' → PLexeme t src i' →
            ∃ gap src, Gap gap ∧ some r :: u = (gap ++ src).map some ++ i' ∧ PLexeme t src i' :=
          fun h1 h2 => ⟨[], _, .nil, h1, h2⟩
        rw [nextTok] at h
        split at h
        · rename_i h0; subst h0; cases h; exact here (src := [0]) rfl .nul
        split at h
        · rename_i hb
          obtain ⟨g, src, h1, rfl, h3⟩ := ih u hu h
          exact ⟨r :: g, src, .blank hb h1, rfl, h3⟩
        split at h
        · rename_i hr; subst hr
          split at h
          · cases h
          · rename_i u' hc
            rcases comment_iff.1 hc with ⟨cs, e, h1, h2, rfl⟩ | ⟨cs, h1, rfl, rfl⟩
            · obtain ⟨g, src, h3, rfl, h4⟩ := ih u' (by simp at hu; omega) h
              exact ⟨35 :: cs ++ e :: g, src, .comment h1 h2 h3, by simp, h4⟩
            · rw [nextTok] at h; cases h
              exact here (src := 35 :: cs) (by simp) (.comment h1)
        rename_i h0 hb h35
        split at h
        · rename_i hr
          obtain ⟨⟨j, b⟩, h1, h2⟩ := ok_of_map.1 h
          cases h2
          obtain ⟨s, cs, h3, rfl, rfl⟩ := (consumeString_iff hr.symm _ (Nat.le_refl _)).1 h1
          rw [List.nil_append]
          exact here (src := r :: s ++ [r]) (by simp) (.string hr.symm h3)
        split at h
        · rename_i hr; subst hr
          obtain ⟨⟨j, b⟩, h1, h2⟩ := ok_of_map.1 h
          cases h2
          obtain ⟨s, cs, h3, rfl, rfl⟩ := (consumeRegexp_iff _ (Nat.le_refl _)).1 h1
          rw [List.nil_append]
          exact here (src := 47 :: s ++ [47]) (by simp) (.regexp h3)
        split at h
        · rename_i hr; subst hr
          unfold equals at h
          split at h
          · cases h
          · cases h; exact here (src := [61, 62]) rfl .rocket
          · rename_i u hn h62
            cases h
            refine here (src := [61]) rfl (.equals ?_)
            rcases i' with _ | ⟨_ | c, m⟩
            · exact .inl rfl
            · exact absurd rfl (hn m)
            · exact Then.head.2 fun h => h62 m (by rw [h])
        split at h
        · rename_i hr
          unfold sign at h
          split at h
          · cases h
          · cases h
          · rename_i n t2
            split at h
            · cases h
            · rename_i hn
              have hn : isDigit n = true := by unfold isDigit; simp; omega
              obtain ⟨⟨ty, j, b⟩, h1, h2⟩ := ok_of_map.1 h
              cases h2
              obtain ⟨s, p, h3, h4, rfl, rfl⟩ := (consumeNumber_iff hn).1 h1
              have : encode r = [r.toUInt8] := by rcases hr with rfl | rfl <;> rfl
              exact here (src := r :: n :: s) (by simp) (by rw [this]; exact .signed hr.symm h3 h4)
        rename_i hq h47 h61 hs
        unfold build at h
        split at h
        · rename_i hd
          obtain ⟨⟨ty, j, b⟩, h1, h2⟩ := ok_of_map.1 h
          cases h2
          obtain ⟨s, p, h3, h4, rfl, rfl⟩ := (consumeNumber_iff hd).1 h1
          exact here (src := r :: s) (by simp) (.number h3 h4)
        split at h
        · rename_i hd
          obtain ⟨⟨j, b⟩, h1, h2⟩ := ok_of_map.1 h
          cases h2
          obtain ⟨cs, h3, rfl, rfl, h4⟩ := (name_iff upper_first).1 h1
          rw [← textOf_cons]
          exact here (src := r :: cs) (by simp) (.name hd h3 h4)
        split at h
        · rename_i hd
          obtain ⟨⟨j, b⟩, h1, h2⟩ := ok_of_map.1 h
          cases h2
          obtain ⟨cs, h3, rfl, rfl, h4⟩ := (name_iff ident_first).1 h1
          rw [← textOf_cons]
          exact here (src := r :: cs) (by simp) (.identifier hd h3 h4)
        · rename_i hd hU hL
          cases h
          refine here (src := [r]) rfl (.char ?_ ?_)
          · simp [isLetter, hd, hU, hL]
          · simp; omega

theorem upper_range {c : Nat} (h : isUpper c = true) : 65 ≤ c ∧ c ≤ 90 := by unfold isUpper at h; simpa using h
theorem lower_range {c : Nat} (h : isLower c = true) : 97 ≤ c ∧ c ≤ 122 := by unfold isLower at h; simpa using h

theorem ptoken_complete {gap src : List Nat} {i' : In} {t : Token} (hg : Gap gap) (h : PLexeme t src i') :
    nextTok ((gap ++ src).map some ++ i') = .ok (t, i') := by
  induction hg with
  | @blank c s hc hs ih =>
    have hc' : c = 32 ∨ c = 9 ∨ c = 10 := hc
    rw [List.cons_append, List.map_cons, List.cons_append, nextTok, if_neg (by omega), if_pos hc']
    exact ih
  | @comment cs s e hcs he hs ih =>
    rw [List.cons_append, List.cons_append, List.map_cons, List.cons_append, nextTok, if_neg (by decide), if_neg (by decide), if_pos rfl]
    have hc : consumeComment (List.map some (cs ++ e :: s ++ src) ++ i') = .ok ((s ++ src).map some ++ i') :=
      comment_iff.2 (.inl ⟨cs, e, hcs, he, by simp⟩)
    split
    · rename_i h'; rw [hc] at h'; cases h'
    · rename_i h'; rw [hc] at h'; cases h'; exact ih
  | nil =>
    rw [List.nil_append]
    cases h with
    | «end» => simp [nextTok]
    | nul => simp [nextTok]
    | @comment cs h =>
      rw [List.append_nil, List.map_cons, nextTok, if_neg (by decide), if_neg (by decide), if_pos rfl]
      have hc : consumeComment (List.map some cs) = .ok [] := comment_iff.2 (.inr ⟨cs, h, rfl, rfl⟩)
      split
      · rename_i h'; rw [hc] at h'; cases h'
      · rename_i h'; rw [hc] at h'; cases h'; rw [nextTok]
    | @string q s cs i hq h =>
      simp only [List.map_cons, List.cons_append]
      rw [nextTok, if_neg (by omega), if_neg (by omega), if_neg (by omega), if_pos hq.symm]
      exact ok_of_map.2 ⟨(_, _), (consumeString_iff hq _ (Nat.le_refl _)).2 ⟨s, cs, h, by simp, rfl⟩, rfl⟩
    | @regexp s cs i h =>
      simp only [List.map_cons, List.cons_append]
      rw [nextTok, if_neg (by decide), if_neg (by decide), if_neg (by decide), if_neg (by decide), if_pos rfl]
      exact ok_of_map.2 ⟨(_, _), (consumeRegexp_iff _ (Nat.le_refl _)).2 ⟨s, cs, h, by simp, rfl⟩, rfl⟩
    | rocket => simp [nextTok, equals]
    | equals h =>
      rcases h with rfl | ⟨c, m, rfl, h⟩
      · simp [nextTok, equals]
      · show nextTok (some 61 :: some c :: m) = _
        rw [nextTok, if_neg (by decide), if_neg (by decide), if_neg (by decide), if_neg (by decide), if_neg (by decide), if_pos rfl]
        unfold equals
        split
        · rename_i h'; cases h'
        · rename_i h'; cases h'; exact absurd rfl h
        · rfl
    | number h hi =>
      obtain ⟨r, s, rfl, hd⟩ := number_char h
      have hr := digit_range hd
      rw [List.map_cons, List.cons_append, nextTok, if_neg (by omega), if_neg (by omega), if_neg (by omega), if_neg (by omega), if_neg (by omega),
        if_neg (by omega), if_neg (by omega), build, if_pos hd]
      exact ok_of_map.2 ⟨(_, _, _), (consumeNumber_iff hd).2 ⟨s, _, h, hi, rfl, rfl⟩, rfl⟩
    | @signed c ty s p i hc h hi =>
      obtain ⟨r, s, rfl, hd⟩ := number_char h
      have hr := digit_range hd
      show nextTok (some c :: some r :: (s.map some ++ i')) = _
      rw [nextTok, if_neg (by omega), if_neg (by omega), if_neg (by omega), if_neg (by omega), if_neg (by omega), if_neg (by omega), if_pos (by omega), sign]
      dsimp only
      rw [if_neg (by omega)]
      have : encode c = [c.toUInt8] := by rcases hc with rfl | rfl <;> rfl
      exact ok_of_map.2 ⟨(_, _, _), (consumeNumber_iff hd).2 ⟨s, _, h, hi, rfl, rfl⟩, by rw [this]; rfl⟩
    | @name c cs i h hs hi =>
      have hc := upper_range h
      have hd : isDigit c = false := by unfold isDigit; simp; omega
      rw [List.map_cons, List.cons_append, nextTok, if_neg (by omega), if_neg (by omega), if_neg (by omega), if_neg (by omega), if_neg (by omega),
        if_neg (by omega), if_neg (by omega), build, if_neg (by rw [hd]; decide), if_pos h]
      exact ok_of_map.2 ⟨(_, _), (name_iff upper_first).2 ⟨cs, hs, rfl, rfl, hi⟩, by rw [textOf_cons]⟩
    | @identifier c cs i h hs hi =>
      have hc := lower_range h
      have hd : isDigit c = false := by unfold isDigit; simp; omega
      have hU : isUpper c = false := by unfold isUpper; simp; omega
      rw [List.map_cons, List.cons_append, nextTok, if_neg (by omega), if_neg (by omega), if_neg (by omega), if_neg (by omega), if_neg (by omega),
        if_neg (by omega), if_neg (by omega), build, if_neg (by rw [hd]; decide), if_neg (by rw [hU]; decide), if_pos h]
      exact ok_of_map.2 ⟨(_, _), (name_iff ident_first).2 ⟨cs, hs, rfl, rfl, hi⟩, by rw [textOf_cons]⟩
    | @char c i h h' =>
      simp at h'
      obtain ⟨h1, hd⟩ := h
      simp only [isLetter, Bool.or_eq_false_iff] at h1
      show nextTok (some c :: i') = _
      rw [nextTok, if_neg (by omega), if_neg (by omega), if_neg (by omega), if_neg (by omega), if_neg (by omega),
        if_neg (by omega), if_neg (by omega), build, if_neg (by rw [hd]; decide), if_neg (by simp [h1]), if_neg (by simp [h1])]

/-- **C98.**  The lexer of pcore reads a token exactly if the input is blanks and comments, characters that the grammar (`PLexeme`) says the token is
written with, and what is left. -/
theorem C98_tokens (i i' : In) (t : Token) : nextTok i = .ok (t, i') ↔
    ∃ gap src, Gap gap ∧ i = (gap ++ src).map some ++ i' ∧ PLexeme t src i' := by
  constructor
  · exact ptoken_sound i.length i (Nat.le_refl _)
  · rintro ⟨gap, src, h1, rfl, h2⟩
    exact ptoken_complete h1 h2

/-- After a comment `#x` and a line end: the name `A::B0`, before `[`; and an identifier whose second part begins with an underscore: `a::_` -/
example : Gap [35, 120, 10] ∧ PLexeme ⟨[65, 58, 58, 66, 48], tName⟩ [65, 58, 58, 66, 48] [some 91] ∧
    PLexeme ⟨[97, 58, 58, 95], tIdentifier⟩ [97, 58, 58, 95] [] :=
  ⟨.comment (cs := [120]) (by decide) (.inl rfl) .nil,
    .name (c := 65) (cs := [58, 58, 66, 48]) (i := [some 91]) rfl (.segment rfl (.char (.inr (.inr rfl)) .nil))
      (Then.head.2 ⟨by unfold NameChar; decide, by decide⟩),
    .identifier (c := 97) (cs := [58, 58, 95]) (i := []) rfl (.segment (.inl rfl) .nil) (.inl rfl)⟩

theorem gap_head {g : List Nat} (h : Gap g) : ∀ c ∈ g.head?, Blank c ∨ c = 35 := by
  intro c hc
  cases h with
  | nil => cases hc
  | blank h => cases hc; exact .inl h
  | comment => cases hc; exact .inr rfl

/-- A lexeme does not begin like a gap, but the comment at the end of the text. -/
theorem plexeme_head {t : Token} {src : List Nat} {i : In} (h : PLexeme t src i) :
    (∀ c ∈ src.head?, ¬ Blank c ∧ c ≠ 35) ∨ (i = [] ∧ ∃ cs, src = 35 :: cs ∧ ∀ c ∈ cs, c ≠ 0 ∧ c ≠ 10) := by
  cases h with
  | «end» => exact .inl fun c hc => by cases hc
  | nul => exact .inl fun c hc => by cases hc; exact ⟨by unfold Blank; decide, by decide⟩
  | comment h => exact .inr ⟨rfl, _, rfl, h⟩
  | string hq h => exact .inl fun c hc => by cases hc; unfold Blank; omega
  | regexp h => exact .inl fun c hc => by cases hc; exact ⟨by unfold Blank; decide, by decide⟩
  | rocket => exact .inl fun c hc => by cases hc; exact ⟨by unfold Blank; decide, by decide⟩
  | equals h => exact .inl fun c hc => by cases hc; exact ⟨by unfold Blank; decide, by decide⟩
  | number h hi =>
    obtain ⟨r, s, rfl, hd⟩ := number_char h
    have hr := digit_range hd
    exact .inl fun c hc => by cases hc; unfold Blank; omega
  | signed hc h hi => exact .inl fun c hc => by cases hc; unfold Blank; omega
  | name h hs hi => have := upper_range h; exact .inl fun c hc => by cases hc; unfold Blank; omega
  | identifier h hs hi => have := lower_range h; exact .inl fun c hc => by cases hc; unfold Blank; omega
  | char h h' => simp at h'; exact .inl fun c hc => by cases hc; unfold Blank; omega

/-- comments end in one place only -/
theorem comment_end {a b x y : List Nat} {e f : Nat} (ha : ∀ c ∈ a, c ≠ 0 ∧ c ≠ 10) (hb : ∀ c ∈ b, c ≠ 0 ∧ c ≠ 10) (he : e = 10 ∨ e = 0) (hf : f = 10 ∨ f = 0)
    (h : a ++ e :: x = b ++ f :: y) : a = b ∧ e = f ∧ x = y := by
  induction a generalizing b with
  | nil =>
    cases b with
    | nil => cases h; exact ⟨rfl, rfl, rfl⟩
    | cons d b => cases h; have := hb e (by simp); omega
  | cons d a ih =>
    cases b with
    | nil => cases h; have := ha f (by simp); omega
    | cons d' b =>
      simp only [List.cons_append, List.cons.injEq] at h
      obtain ⟨rfl, h⟩ := h
      obtain ⟨rfl, rfl, rfl⟩ := ih (fun c hc => ha c (by simp [hc])) (fun c hc => hb c (by simp [hc])) h
      exact ⟨rfl, rfl, rfl⟩

theorem gap_unique {a b x y : List Nat} {i : In} {t : Token} (ha : Gap a) (hb : Gap b) (hx : PLexeme t x i) (hy : PLexeme t y i) (h : a ++ x = b ++ y) :
    a = b ∧ x = y := by
  have stuck : ∀ {x b y : List Nat}, PLexeme t x i → Gap b → x = b ++ y → b = [] := by
    intro x b y hx hb h
    cases hb with
    | nil => rfl
    | @blank c s hc hs =>
      rcases plexeme_head hx with h1 | ⟨-, cs, rfl, h1⟩
      · subst h; exact absurd hc (h1 c (by simp)).1
      · cases h; unfold Blank at hc; omega
    | @comment cs s e hcs he hs =>
      rcases plexeme_head hx with h1 | ⟨-, cs', rfl, h1⟩
      · subst h; exact absurd rfl (h1 35 (by simp)).2
      · simp at h
        have := h1 e (by rw [h]; simp)
        omega
  induction ha generalizing b with
  | nil =>
    have := stuck hx hb h
    subst this
    exact ⟨rfl, h⟩
  | @blank c s hc hs ih =>
    cases hb with
    | nil => exact absurd (stuck hy (.blank hc hs) h.symm) (by simp)
    | @blank c' s' hc' hs' =>
      simp only [List.cons_append, List.cons.injEq] at h
      obtain ⟨rfl, h⟩ := h
      obtain ⟨rfl, rfl⟩ := ih hs' h
      exact ⟨rfl, rfl⟩
    | @comment cs s' e hcs he hs' =>
      obtain ⟨rfl, -⟩ : c = 35 ∧ _ := by simpa using h
      unfold Blank at hc; omega
  | @comment cs s e hcs he hs ih =>
    cases hb with
    | nil => exact absurd (stuck hy (.comment hcs he hs) h.symm) (by simp)
    | @blank c' s' hc' hs' =>
      obtain ⟨rfl, -⟩ : 35 = c' ∧ _ := by simpa using h
      unfold Blank at hc'; omega
    | @comment cs' s' e' hcs' he' hs' =>
      simp only [List.cons_append, List.cons.injEq, true_and, List.append_assoc] at h
      obtain ⟨rfl, rfl, h5⟩ := comment_end hcs hcs' he he' h
      clear h
      have h := h5
      obtain ⟨rfl, rfl⟩ := ih hs' h
      exact ⟨rfl, rfl⟩

/-- **C98**: a text has one sequence of tokens: there is one way only to read the next one, and the grammar tells which characters are its own. -/
theorem C98_unique {gap gap' src src' : List Nat} {i i' : In} {t t' : Token} (h1 : Gap gap) (h1' : Gap gap')
    (h2 : PLexeme t src i) (h2' : PLexeme t' src' i') (h : (gap ++ src).map some ++ i = (gap' ++ src').map some ++ i') :
    t = t' ∧ gap = gap' ∧ src = src' ∧ i = i' := by
  have e := ptoken_complete h1 h2
  rw [h, ptoken_complete h1' h2'] at e
  obtain ⟨rfl, rfl⟩ : t' = t ∧ i' = i := by cases e; exact ⟨rfl, rfl⟩
  have h3 : gap ++ src = gap' ++ src' := by
    have := List.append_cancel_right h
    exact (List.map_inj_right fun a b h => Option.some.inj h).1 this
  obtain ⟨rfl, rfl⟩ := gap_unique h1 h1' h2 h2' h3
  exact ⟨rfl, rfl, rfl, rfl⟩

/-- ` #a` ends a text: the comment is its last token, the end. -/
example : Gap [32] ∧ PLexeme ⟨[], tEnd⟩ [35, 97] [] := ⟨.blank (.inl rfl) .nil, .comment (cs := [97]) (by decide)⟩

end Verif.Pcore
