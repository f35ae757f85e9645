import Verif.Text.TokenProps
import Verif.Text.Number
/-!
# Layout: lemmas
-/
set_option autoImplicit false
set_option linter.unusedVariables false
namespace Verif.Text
open Verif.Value (Str Val)

/-- Nothing but characters between tokens -/
def Blanks (b : List Nat) : Prop := ∀ c ∈ b, Blank c

/-- The same tokens in the same order: they are written alike, or as the grammar of the tokens (`Lexeme`, of C93) allows to write them, and the
blanks before them and at the end are of no matter. -/
inductive Relaid : In → In → Prop
  | last {b b' : List Nat} (h : Blanks b) (h' : Blanks b') : Relaid (b.map some) (b'.map some)
  | token {t : Token} {b b' src src' : List Nat} {i i' : In} (h : Blanks b) (h' : Blanks b') (hl : Lexeme t src i) (hl' : Lexeme t src' i')
      (hr : Relaid i i') : Relaid ((b ++ src).map some ++ i) ((b' ++ src').map some ++ i')

theorem tokens_blanks {b : List Nat} (h : Blanks b) : tokens (b.map some) = .ok [⟨[], tEnd⟩] := by
  have := token_complete (src := []) h Lexeme.end
  rw [List.append_nil, List.append_nil] at this
  exact tokens_end this rfl

theorem Relaid.tokens {i j : In} (h : Relaid i j) : tokens i = tokens j := by
  induction h with
  | last h h' => rw [tokens_blanks h, tokens_blanks h']
  | @token t b b' src src' i i' h h' hl hl' hr ih =>
    have e := token_complete h hl
    have e' := token_complete h' hl'
    by_cases ht : t.type = tEnd
    · rw [tokens_end e ht, tokens_end e' ht]
    · rw [tokens_cons e ht, tokens_cons e' ht, ih]

theorem Then.blank {p : Nat → In → Prop} (hp : ∀ c more, Blank c → p c more) {j : In} (hj : ∀ c ∈ j.head?, ∃ n, c = some n ∧ Blank n) : Then p j := by
  cases j with
  | nil => exact .inl rfl
  | cons c more =>
    obtain ⟨n, rfl, hn⟩ := hj c rfl
    exact .inr ⟨n, more, rfl, hp n more hn⟩

theorem Number.blank {ty : Nat} {s : List Nat} {p : Nat → In → Prop} (h : Number ty s p) (c : Nat) (more : In) (hc : Blank c) : p c more := by
  cases h <;> rcases hc with rfl | rfl | rfl <;> first | decide | (refine ⟨by decide, by decide, by decide, by decide, by decide, fun h => ?_⟩; cases h)

theorem lexeme_after {t : Token} {src : List Nat} {i j : In} (h : Lexeme t src i) (ht : t.type ≠ tEnd)
    (hj : ∀ c ∈ j.head?, ∃ n, c = some n ∧ Blank n) : Lexeme t src j := by
  cases h with
  | «end» => exact absurd rfl ht
  | nul => exact absurd rfl ht
  | raw h => exact .raw h
  | string h => exact .string h
  | regexp h => exact .regexp h
  | dot h => exact .dot (Then.blank (fun c _ hc => by rcases hc with rfl | rfl | rfl <;> decide) hj)
  | dotdot h => exact .dotdot (Then.blank (fun c _ hc => by rcases hc with rfl | rfl | rfl <;> decide) hj)
  | dotdotdot => exact .dotdotdot
  | number h hi => exact .number h (Then.blank h.blank hj)
  | plus h hi => exact .plus h (Then.blank h.blank hj)
  | minus h hi => exact .minus h (Then.blank h.blank hj)
  | identifier h hs hi => exact .identifier h hs (Then.blank (fun c _ hc => by rcases hc with rfl | rfl | rfl <;> decide) hj)
  | char h h' => exact .char h h'

/-- The characters of a text: parts, each of them blanks and what follows them, and blanks at the end -/
def spread (parts : List (List Nat × List Nat)) (last : List Nat) : List Nat := parts.flatMap (fun p => p.1 ++ p.2) ++ last

theorem cut (n : Nat) : ∀ (cs : List Nat) (ts : List Token), cs.length ≤ n → 0 ∉ cs → tokens (cs.map some) = .ok ts →
    ∃ parts last, cs = spread parts last ∧ (∀ p ∈ parts, Blanks p.1 ∧ ∃ t i, Lexeme t p.2 i) ∧ Blanks last ∧
      ∀ parts' last', parts'.map (·.2) = parts.map (·.2) → (∀ p ∈ parts', Blanks p.1) → Blanks last' → (∀ p ∈ parts'.tail, p.1 ≠ []) →
        tokens ((spread parts' last').map some) = .ok ts := by
  induction n with
  | zero =>
    intro cs ts hl h0 h
    have : cs = [] := List.eq_nil_of_length_eq_zero (by omega)
    subst this
    have e := tokens_blanks (b := []) (by simp [Blanks])
    rw [h] at e
    refine ⟨[], [], rfl, by simp, by simp [Blanks], fun parts' last' hm _ hb _ => ?_⟩
    cases parts' with
    | nil => rw [e]; exact tokens_blanks hb
    | cons => cases hm
  | succ n ih =>
    intro cs ts hl h0 h
    cases hn : nextToken (cs.map some) with
    | error e => rw [tokens] at h; split at h <;> rename_i h' <;> rw [hn] at h' <;> cases h'; cases h
    | ok r =>
      obtain ⟨t, i'⟩ := r
      obtain ⟨b, src, hb, he, hx⟩ := token_sound _ hn
      have hlen := nextToken_length hn
      -- what is left are characters too
      obtain ⟨x, y, rfl, h1, rfl⟩ := List.map_eq_append_iff.1 he
      obtain rfl : x = b ++ src := (List.map_inj_right fun a b h => Option.some.inj h).1 h1
      by_cases ht : t.type = tEnd
      · have hs : src = [] ∧ y = [] ∧ t = ⟨[], tEnd⟩ := by
          generalize hy : y.map some = i at hx
          cases hx with
          | «end» => exact ⟨rfl, List.map_eq_nil_iff.1 hy, rfl⟩
          | nul => simp at h0
          | number hq => cases hq <;> cases ht
          | plus hq => cases hq <;> cases ht
          | minus hq => cases hq <;> cases ht
          | char h h' => exact absurd (show _ = 0 from ht) (by rintro rfl; simp at h')
          | _ => cases ht
        obtain ⟨rfl, rfl, rfl⟩ := hs
        rw [tokens_end hn rfl] at h
        refine ⟨[], b, by simp [spread], by simp, hb, fun parts' last' hm _ hb' _ => ?_⟩
        cases parts' with
        | nil => rw [← h]; exact tokens_blanks hb'
        | cons => cases hm
      · rw [tokens_cons hn ht] at h
        cases hr : tokens (y.map some) with
        | error e => rw [hr] at h; cases h
        | ok ts' =>
          rw [hr] at h
          have hts : t :: ts' = ts := by cases h; rfl
          have hlt := hlen ht
          simp only [List.length_map] at hlt
          obtain ⟨parts, last, rfl, h2, h3, h4⟩ := ih y ts' (by omega) (fun h => h0 (List.mem_append_right _ h)) hr
          refine ⟨(b, src) :: parts, last, by simp [spread], ?_, h3, fun parts' last' hm hb' hl' hne => ?_⟩
          · intro p hp
            rcases List.mem_cons.1 hp with rfl | hp
            · exact ⟨hb, t, _, hx⟩
            · exact h2 p hp
          · cases parts' with
            | nil => cases hm
            | cons p ps =>
              obtain ⟨b', src'⟩ := p
              simp only [List.map_cons, List.cons.injEq] at hm
              obtain ⟨rfl, hm⟩ := hm
              have h5 := h4 ps last' hm (fun p hp => hb' p (List.mem_cons_of_mem _ hp)) hl' (fun p hp => hne p (List.mem_of_mem_tail hp))
              have h6 : Lexeme t src' ((spread ps last').map some) := by
                refine lexeme_after hx ht fun c hc => ?_
                cases ps with
                | nil =>
                  cases last' with
                  | nil => cases hc
                  | cons d r => cases hc; exact ⟨d, rfl, hl' d (by simp)⟩
                | cons q qs =>
                  have hq : q.1 ≠ [] := hne q (by simp)
                  have hqb := hb' q (by simp)
                  obtain ⟨q1, q2⟩ := q
                  cases q1 with
                  | nil => exact absurd rfl hq
                  | cons d r => cases hc; exact ⟨d, rfl, hqb d (by simp)⟩
              have h7 := token_complete (hb' (b', src') (by simp)) h6
              have h8 : (spread ((b', src') :: ps) last').map some = (b' ++ src').map some ++ (spread ps last').map some := by
                simp [spread]
              rw [h8, tokens_cons h7 ht, h5, ← hts]
              rfl

end Verif.Text
