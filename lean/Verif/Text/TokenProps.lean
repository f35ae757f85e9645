import Verif.Text.TokenLemmas
/-!
# C93: how the tokens are written
-/
set_option autoImplicit false
set_option linter.unusedVariables false
set_option linter.unusedSimpArgs false
namespace Verif.Text
open Verif.Value (Str)

theorem number_char {ty : Nat} {s : List Nat} {p : Nat → In → Prop} (h : Number ty s p) : ∃ r s', s = r :: s' ∧ isDigit r = true := by
  have key : ∀ {ds t : List Nat}, DigitSeq ds → ∃ r s', ds ++ t = r :: s' ∧ isDigit r = true := by
    rintro ds t ⟨h1, h2⟩
    cases ds with
    | nil => exact absurd rfl h1
    | cons d ds => exact ⟨d, ds ++ t, rfl, h2 d (by simp)⟩
  cases h with
  | integer h => have := key (t := []) h; rwa [List.append_nil] at this
  | hex hx h h0 hh => exact ⟨48, _, rfl, rfl⟩
  | fraction h h' => exact key h
  | exponent h he => exact key h
  | both h h' he => rw [List.append_assoc]; exact key h

theorem token_sound (i : In) {i' : In} {t : Token} (h : nextToken i = .ok (t, i')) :
    ∃ blanks src, (∀ c ∈ blanks, Blank c) ∧ i = (blanks ++ src).map some ++ i' ∧ Lexeme t src i' := by
  induction i with
  | nil => cases h; exact ⟨[], [], by simp, rfl, .end⟩
  | cons c u ih =>
    cases c with
    | none => cases h
    | some r =>
      have here : ∀ {src : List Nat}, some r :: u = src.map some ++ i' → Lexeme t src i' →
          ∃ blanks src, (∀ c ∈ blanks, Blank c) ∧ some r :: u = (blanks ++ src).map some ++ i' ∧ Lexeme t src i' :=
        fun h1 h2 => ⟨[], _, by simp, h1, h2⟩
      rw [nextToken] at h
      split at h
      · rename_i h0; subst h0; cases h; exact here (src := [0]) rfl .nul
      split at h
      · rename_i hb
        obtain ⟨bl, src, h1, rfl, h3⟩ := ih h
        exact ⟨r :: bl, src, by simpa [Blank] using ⟨hb, h1⟩, rfl, h3⟩
      rename_i h0 hb
      split at h
      · rename_i hr; subst hr
        obtain ⟨⟨j, b⟩, h1, h2⟩ := ok_of_map.1 h
        cases h2
        obtain ⟨cs, h3, rfl, rfl⟩ := consumeRaw_iff.1 h1
        rw [List.nil_append]
        exact here (src := 96 :: cs ++ [96]) (by simp) (.raw h3)
      split at h
      · rename_i hr; subst hr
        obtain ⟨⟨j, b⟩, h1, h2⟩ := ok_of_map.1 h
        cases h2
        obtain ⟨s, cs, h3, rfl, rfl⟩ := (consumeString_iff (.inl rfl) _ (Nat.le_refl _)).1 h1
        rw [List.nil_append]
        exact here (src := 34 :: s ++ [34]) (by simp) (.string h3)
      split at h
      · rename_i hr; subst hr
        obtain ⟨⟨j, b⟩, h1, h2⟩ := ok_of_map.1 h
        cases h2
        obtain ⟨s, cs, h3, rfl, rfl⟩ := (consumeRegexp_iff _ (Nat.le_refl _)).1 h1
        rw [List.nil_append]
        exact here (src := 47 :: s ++ [47]) (by simp) (.regexp h3)
      split at h
      · rename_i hr; subst hr
        unfold dots at h
        split at h
        · cases h; exact here (src := [46]) rfl (.dot (.inl rfl))
        · cases h
        · split at h
          · rename_i hr2; subst hr2
            split at h
            · cases h; exact here (src := [46, 46]) rfl (.dotdot (.inl rfl))
            · cases h
            · split at h
              · rename_i hr3; subst hr3; cases h; exact here (src := [46, 46, 46]) rfl .dotdotdot
              · rename_i hr3; cases h; exact here (src := [46, 46]) rfl (.dotdot (Then.head.2 hr3))
          · rename_i hr2; cases h; exact here (src := [46]) rfl (.dot (Then.head.2 hr2))
      split at h
      · rename_i hr
        unfold signed at h
        split at h
        · cases h
        · cases h
        · rename_i n t2
          split at h
          · rename_i hn
            obtain ⟨⟨ty, j, b⟩, h1, h2⟩ := ok_of_map.1 h
            cases h2
            obtain ⟨s, p, h3, h4, rfl, rfl⟩ := (consumeNumber_iff hn).1 h1
            rcases hr with rfl | rfl
            · exact here (src := 45 :: n :: s) (by simp) (.minus h3 h4)
            · exact here (src := 43 :: n :: s) (by simp) (.plus h3 h4)
          · cases h
      rename_i h96 h34 h47 h46 hs
      unfold buildToken at h
      split at h
      · rename_i hd
        obtain ⟨⟨ty, j, b⟩, h1, h2⟩ := ok_of_map.1 h
        cases h2
        obtain ⟨s, p, h3, h4, rfl, rfl⟩ := (consumeNumber_iff hd).1 h1
        exact here (src := r :: s) (by simp) (.number h3 h4)
      split at h
      · rename_i hd
        obtain ⟨⟨j, b⟩, h1, h2⟩ := ok_of_map.1 h
        cases h2
        obtain ⟨cs, h3, rfl, rfl, h4⟩ := identifierLoop_iff.1 h1
        rw [← textOf_cons]
        exact here (src := r :: cs) (by simp) (.identifier hd h3 (h4.imp fun _ _ h => h.1))
      · rename_i hd hi
        cases h
        refine here (src := [r]) rfl (.char ?_ ?_)
        · simp [isId, hd, hi]
        · simp; omega

theorem id_char {c : Nat} (h : isIdStart c = true) : isDigit c = false ∧ c ∉ [0, 9, 10, 32, 34, 43, 45, 46, 47, 96] := by
  unfold isIdStart isLetter isUpper isLower at h
  unfold isDigit
  simp at h ⊢
  omega

theorem token_complete {blanks src : List Nat} {i' : In} {t : Token} (hb : ∀ c ∈ blanks, Blank c) (h : Lexeme t src i') :
    nextToken ((blanks ++ src).map some ++ i') = .ok (t, i') := by
  induction blanks with
  | cons c bl ih =>
    have hc : c = 32 ∨ c = 9 ∨ c = 10 := hb c (by simp)
    have := ih fun c hc => hb c (by simp [hc])
    rw [List.cons_append, List.map_cons, List.cons_append, nextToken, if_neg (by omega), if_pos hc]
    exact this
  | nil =>
    rw [List.nil_append]
    cases h with
    | «end» => rfl
    | nul => rfl
    | @raw cs i h =>
      simp only [List.map_cons, List.cons_append]
      rw [nextToken, if_neg (by decide), if_neg (by decide), if_pos rfl]
      exact ok_of_map.2 ⟨(_, _), consumeRaw_iff.2 ⟨cs, h, by simp, rfl⟩, rfl⟩
    | @string s cs i h =>
      simp only [List.map_cons, List.cons_append]
      rw [nextToken, if_neg (by decide), if_neg (by decide), if_neg (by decide), if_pos rfl]
      exact ok_of_map.2 ⟨(_, _), (consumeString_iff (.inl rfl) _ (Nat.le_refl _)).2 ⟨s, cs, h, by simp, rfl⟩, rfl⟩
    | @regexp s cs i h =>
      simp only [List.map_cons, List.cons_append]
      rw [nextToken, if_neg (by decide), if_neg (by decide), if_neg (by decide), if_neg (by decide), if_pos rfl]
      exact ok_of_map.2 ⟨(_, _), (consumeRegexp_iff _ (Nat.le_refl _)).2 ⟨s, cs, h, by simp, rfl⟩, rfl⟩
    | dot h =>
      rcases h with rfl | ⟨c, m, rfl, h⟩
      · rfl
      · show nextToken (some 46 :: some c :: m) = _
        rw [nextToken, if_neg (by decide), if_neg (by decide), if_neg (by decide), if_neg (by decide), if_neg (by decide), if_pos rfl]
        unfold dots
        dsimp only
        rw [if_neg h]
    | dotdot h =>
      rcases h with rfl | ⟨c, m, rfl, h⟩
      · rfl
      · show nextToken (some 46 :: some 46 :: some c :: m) = _
        rw [nextToken, if_neg (by decide), if_neg (by decide), if_neg (by decide), if_neg (by decide), if_neg (by decide), if_pos rfl]
        unfold dots
        dsimp only
        rw [if_pos rfl, if_neg h]
    | dotdotdot => rfl
    | number h hi =>
      obtain ⟨r, s, rfl, hd⟩ := number_char h
      have hr := digit_range hd
      rw [List.map_cons, List.cons_append, nextToken, if_neg (by omega), if_neg (by omega), if_neg (by omega), if_neg (by omega), if_neg (by omega),
        if_neg (by omega), if_neg (by omega), buildToken, if_pos hd]
      exact ok_of_map.2 ⟨(_, _, _), (consumeNumber_iff hd).2 ⟨s, _, h, hi, rfl, rfl⟩, rfl⟩
    | plus h hi =>
      obtain ⟨r, s, rfl, hd⟩ := number_char h
      show nextToken (some 43 :: some r :: (s.map some ++ i')) = _
      rw [nextToken, if_neg (by decide), if_neg (by decide), if_neg (by decide), if_neg (by decide), if_neg (by decide), if_neg (by decide), if_pos (by decide), signed]
      dsimp only
      rw [if_pos hd]
      exact ok_of_map.2 ⟨(_, _, _), (consumeNumber_iff hd).2 ⟨s, _, h, hi, rfl, rfl⟩, rfl⟩
    | minus h hi =>
      obtain ⟨r, s, rfl, hd⟩ := number_char h
      show nextToken (some 45 :: some r :: (s.map some ++ i')) = _
      rw [nextToken, if_neg (by decide), if_neg (by decide), if_neg (by decide), if_neg (by decide), if_neg (by decide), if_neg (by decide), if_pos (by decide), signed]
      dsimp only
      rw [if_pos hd]
      exact ok_of_map.2 ⟨(_, _, _), (consumeNumber_iff hd).2 ⟨s, _, h, hi, rfl, rfl⟩, rfl⟩
    | @identifier c cs i h hs hi =>
      obtain ⟨hd, hc⟩ := id_char h
      simp at hc
      rw [List.map_cons, List.cons_append, nextToken, if_neg (by omega), if_neg (by omega), if_neg (by omega), if_neg (by omega), if_neg (by omega),
        if_neg (by omega), if_neg (by omega), buildToken, if_neg (by rw [hd]; decide), if_pos h]
      exact ok_of_map.2 ⟨(_, _), identifierLoop_iff.2 ⟨cs, hs, rfl, rfl, hi.imp fun _ _ h => ⟨h, id⟩⟩, by rw [textOf_cons]⟩
    | @char c i h h' =>
      simp at h'
      simp only [isId, Bool.or_eq_false_iff] at h
      show nextToken (some c :: i') = _
      rw [nextToken, if_neg (by omega), if_neg (by omega), if_neg (by omega), if_neg (by omega), if_neg (by omega),
        if_neg (by omega), if_neg (by omega), buildToken, if_neg (by rw [h.2]; decide), if_neg (by rw [h.1]; decide)]

/-- **C93.**  The lexer reads a token exactly if the input is blanks, characters that the grammar (`Lexeme`) says the token is written with, and
what is left. -/
theorem C93_tokens (i i' : In) (t : Token) : nextToken i = .ok (t, i') ↔
    ∃ blanks src, (∀ c ∈ blanks, Blank c) ∧ i = (blanks ++ src).map some ++ i' ∧ Lexeme t src i' := by
  constructor
  · exact token_sound i
  · rintro ⟨blanks, src, h1, rfl, h2⟩
    exact token_complete h1 h2

/-- `\t-0.5e+3]` begins with the float `-0.5e+3`, and `"a\"\n"` is the string of `a`, a quote and a line end. -/
example : (∃ src, Lexeme ⟨[45, 48, 46, 53, 101, 43, 51], tFloat⟩ src [some 93]) ∧
    nextToken (([9] ++ [45, 48, 46, 53, 101, 43, 51]).map some ++ [some 93]) = .ok (⟨[45, 48, 46, 53, 101, 43, 51], tFloat⟩, [some 93]) ∧
    Lexeme ⟨[97, 34, 10], tString⟩ [34, 97, 92, 34, 92, 110, 34] [] :=
  ⟨⟨_, .minus (i := [some 93]) (.both (ds := [48]) (fs := [53]) (es := [101, 43, 51]) ⟨by simp, by decide⟩ ⟨by simp, by decide⟩
      ⟨101, [43], [51], rfl, .inl rfl, .inr (.inl rfl), by simp, by decide⟩) (Then.head.2 (by decide))⟩, by rfl,
    .string (s := [97, 92, 34, 92, 110]) (cs := [97, 34, 10]) (.plain (by decide) (.quote (.newline .nil)))⟩

theorem lexeme_head {t : Token} {src : List Nat} {i : In} (h : Lexeme t src i) : ∀ c ∈ src.head?, ¬ Blank c := by
  intro c hc
  cases h with
  | number h hi =>
    obtain ⟨r, s, rfl, hd⟩ := number_char h
    have hr := digit_range hd
    cases hc
    unfold Blank; omega
  | identifier h hs hi =>
    obtain ⟨hd, hx⟩ := id_char h
    cases hc
    simp at hx
    unfold Blank; omega
  | char h h' =>
    cases hc
    simp at h'
    unfold Blank; omega
  | _ => cases hc <;> (unfold Blank; decide)

/-- **C93**: a text has one sequence of tokens: there is one way only to read the next one, and the grammar tells which characters are its own. -/
theorem C93_unique {blanks blanks' src src' : List Nat} {i i' : In} {t t' : Token} (h1 : ∀ c ∈ blanks, Blank c) (h1' : ∀ c ∈ blanks', Blank c)
    (h2 : Lexeme t src i) (h2' : Lexeme t' src' i') (h : (blanks ++ src).map some ++ i = (blanks' ++ src').map some ++ i') :
    t = t' ∧ blanks = blanks' ∧ src = src' ∧ i = i' := by
  have e := token_complete h1 h2
  rw [h, token_complete h1' h2'] at e
  obtain ⟨rfl, rfl⟩ : t' = t ∧ i' = i := by cases e; exact ⟨rfl, rfl⟩
  have h3 : blanks ++ src = blanks' ++ src' := by
    have := List.append_cancel_right h
    exact (List.map_inj_right fun a b h => Option.some.inj h).1 this
  have key : ∀ (a b x y : List Nat), (∀ c ∈ a, Blank c) → (∀ c ∈ b, Blank c) → (∀ c ∈ x.head?, ¬ Blank c) → (∀ c ∈ y.head?, ¬ Blank c) →
      a ++ x = b ++ y → a = b ∧ x = y := by
    intro a
    induction a with
    | nil =>
      intro b x y _ hb hx _ e
      cases b with
      | nil => exact ⟨rfl, e⟩
      | cons c b =>
        rw [List.nil_append, List.cons_append] at e
        subst e
        exact absurd (hb c (by simp)) (hx c (by simp))
    | cons c a ih =>
      intro b x y ha hb hx hy e
      cases b with
      | nil =>
        rw [List.nil_append, List.cons_append] at e
        subst e
        exact absurd (ha c (by simp)) (hy c (by simp))
      | cons d b =>
        simp only [List.cons_append, List.cons.injEq] at e
        obtain ⟨rfl, e⟩ := e
        obtain ⟨rfl, rfl⟩ := ih b x y (fun c hc => ha c (by simp [hc])) (fun c hc => hb c (by simp [hc])) hx hy e
        exact ⟨rfl, rfl⟩
  obtain ⟨rfl, rfl⟩ := key _ _ _ _ h1 h1' (lexeme_head h2) (lexeme_head h2') h3
  exact ⟨rfl, rfl, rfl, rfl⟩

example : Lexeme ⟨[48, 120, 70], tInteger⟩ (48 :: [] ++ 120 :: [70]) [some 103] ∧ Lexeme ⟨[49], tInteger⟩ [49] [some 46, some 46, some 50] :=
  ⟨.number (.hex (ds := []) (hs := [70]) (.inl rfl) (by simp) (by simp) (by decide)) (Then.head.2 (by decide)), .number (i := [some 46, some 46, some 50]) (.integer (ds := [49]) ⟨by simp, by decide⟩) (Then.head.2 (by decide))⟩

end Verif.Text
