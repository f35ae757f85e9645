import Verif.Stream.BytesRead
/-!
# Lemmas: the states of the decoder
-/
set_option autoImplicit false
set_option linter.unusedVariables false
set_option linter.unusedSimpArgs false
namespace Verif.Stream
open Verif.Value (Str runeLen)

/-- The states along tokens -/
def runToks (m : TState) (stk : List TState) : List JTok → Option (TState × List TState)
  | [] => some (m, stk)
  | t :: ts =>
    match tokStep m stk t with
    | none => none
    | some x => runToks x.1 x.2 ts

theorem runToks_append {m m' : TState} {stk stk' : List TState} {a b : List JTok} (h : runToks m stk a = some (m', stk')) :
    runToks m stk (a ++ b) = runToks m' stk' b := by
  induction a generalizing m stk with
  | nil => cases h; rfl
  | cons t a ih =>
    simp only [runToks, List.cons_append] at h ⊢
    cases ht : tokStep m stk t with
    | none => simp [ht] at h
    | some x => simp only [ht] at h ⊢; exact ih h

mutual
theorem val_run : ∀ {ts : List JTok}, JVal ts → ∀ (m : TState) (stk : List TState), m.value = true → runToks m stk ts = some (m.after, stk)
  | _, .scalar t h, m, stk, hm => by
    cases t <;> simp only [JTok.scalar, Bool.false_eq_true] at h
    · cases m <;> simp [TState.value] at hm <;> rfl
    all_goals simp [runToks, tokStep, hm]
  | _, .arr0, m, stk, hm => by simp [runToks, tokStep, hm]
  | _, .arr ts h, m, stk, hm => by
    have h1 : runToks m stk [.lbrack] = some (.arrayStart, m :: stk) := by simp [runToks, tokStep, hm]
    have h2 := elems_run h .arrayStart (m :: stk) (.inl rfl)
    rw [List.append_assoc, runToks_append h1, runToks_append h2]
    simp [runToks, tokStep]
  | _, .obj0, m, stk, hm => by simp [runToks, tokStep, hm]
  | _, .obj ts h, m, stk, hm => by
    have h1 : runToks m stk [.lbrace] = some (.objectStart, m :: stk) := by simp [runToks, tokStep, hm]
    have h2 := members_run h (m :: stk)
    rw [List.append_assoc, runToks_append h1, runToks_append h2]
    simp [runToks, tokStep]
theorem elems_run : ∀ {ts : List JTok}, JElems ts → ∀ (m : TState) (stk : List TState), m = .arrayStart ∨ m = .arrayValue →
    runToks m stk ts = some (.arrayComma, stk)
  | _, .one v h, m, stk, hm => by
    rw [val_run h m stk (by rcases hm with rfl | rfl <;> rfl)]
    rcases hm with rfl | rfl <;> rfl
  | _, .more ts v h hv, m, stk, hm => by
    rw [List.append_assoc, runToks_append (elems_run h m stk hm)]
    simp only [runToks, tokStep, List.cons_append, List.nil_append, if_true]
    exact val_run hv .arrayValue stk rfl
theorem members_run : ∀ {ts : List JTok}, JMembers ts → ∀ (stk : List TState), runToks .objectStart stk ts = some (.objectComma, stk)
  | _, .one k v h, stk => val_run h .objectValue stk rfl
  | _, .more ts k v h hv, stk => by
    rw [List.append_assoc, runToks_append (members_run h stk)]
    exact val_run hv .objectValue stk rfl
end

theorem strip_cons (t : JTok) (ts : List JTok) : strip (t :: ts) = if t = .comma ∨ t = .colon then strip ts else t :: strip ts := by
  unfold strip
  rw [List.filter_cons]
  by_cases h : t = .comma ∨ t = .colon
  · rw [if_pos h, if_neg (by rcases h with h | h <;> simp [h])]
  · rw [if_neg h, if_pos (by simpa [not_or] using h)]

/-- What `Token` yields for tokens that the states allow -/
theorem tokenStream_run {s r : Str} {ts : List JTok} (h : Lexes s ts r) : ∀ {m m' : TState} {stk stk' : List TState} (n : Nat),
    runToks m stk ts = some (m', stk') → tokenStream (ts.length + n) m stk s = strip ts ++ tokenStream n m' stk' r := by
  induction h with
  | nil s => intro m m' stk stk' n hr; cases hr; simp [strip]
  | @cons s s' r t ts h h' ih =>
    intro m m' stk stk' n hr
    simp only [runToks] at hr
    cases ht : tokStep m stk t with
    | none => simp [ht] at hr
    | some x =>
      simp only [ht] at hr
      have := ih n hr
      rw [show (t :: ts).length + n = (ts.length + n) + 1 by simp; omega, tokenStream]
      simp only [h, ht, this, strip_cons]
      split <;> rfl

/-- A text of tokens, read from the start -/
theorem toks_text {ts : List JTok} {bs : Str} (hv : JVal ts) (hs : Spells false ts bs) (hl : ts.length ≤ bs.length) :
    tokenStream (bs.length + 1) .topValue [] bs = strip ts := by
  obtain ⟨w, hw, hx⟩ := spells_lexes hs [] (by intro b r h; cases h) (val_apart hv)
  rw [List.append_nil, List.append_nil] at hx
  have hr := val_run hv .topValue [] rfl
  obtain ⟨k, hk⟩ := Nat.le.dest hl
  rw [← hk, Nat.add_assoc, tokenStream_run hx (k + 1) hr, tokenStream]
  have : lexTok w = none := by
    have : w.dropWhile isSpace = [] := by
      clear hx
      induction w with
      | nil => rfl
      | cons b w ih =>
        rw [List.dropWhile_cons, if_pos (isSpace_iff.mpr (hw b List.mem_cons_self))]
        exact ih fun c hc => hw c (List.mem_cons_of_mem _ hc)
    unfold lexTok
    rw [this]
  rw [this]
  simp

theorem tokText_length {l : Bool} {t : JTok} {x : Str} (h : TokText l t x) : 1 ≤ x.length := by
  cases h with
  | num _ h =>
    obtain ⟨b, r, rfl, _⟩ := numText_head h
    simp
  | _ => simp

theorem spells_length {l : Bool} {ts : List JTok} {bs : Str} (h : Spells l ts bs) : ts.length ≤ bs.length := by
  induction h with
  | nil => exact Nat.le_refl _
  | blank b ts bs hb h ih => simp only [List.length_cons]; omega
  | tok t x ts bs hx h ih =>
    have := tokText_length hx
    simp only [List.length_cons, List.length_append]; omega

/-- How a text is spelled does not matter. -/
theorem unmarshalBytes_text {D : Decoder} {E : JEnv} {fuel : Nat} {ts : List JTok} {bs : Str} (hv : JVal ts) (hs : Spells false ts bs) :
    unmarshalBytes D E fuel bs = unmarshal D E fuel ts := by
  unfold unmarshalBytes unmarshal
  rw [toks_text hv hs (spells_length hs)]
  rcases jelem E D.dialect.refKey fuel none (strip ts) with ⟨_, _ | _⟩ | _ | _ <;> rfl

end Verif.Stream
