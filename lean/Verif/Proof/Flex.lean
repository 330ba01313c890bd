import Verif.Model.Flex
import Mathlib.Tactic.Linarith
import Mathlib.Data.List.TakeWhile

/-! # Facts on matching -/

namespace Verif.Flex

open Verif.Wf

/-- The rest does not go on with a character of the class. -/
def Stops (p : Char → Bool) (r : List Char) : Prop := ∀ c ∈ r.head?, p c = false

theorem Stops.nil (p : Char → Bool) : Stops p [] := by simp [Stops]

theorem Stops.cons {p : Char → Bool} {c : Char} (r : List Char) (h : p c = false) :
    Stops p (c :: r) := by simpa [Stops] using h

theorem takeWhile_app {p : Char → Bool} {l r : List Char} (hl : ∀ c ∈ l, p c = true)
    (hr : Stops p r) : (l ++ r).takeWhile p = l ∧ (l ++ r).dropWhile p = r := by
  induction l with
  | nil =>
    cases r with
    | nil => simp
    | cons c cs => have := hr c (by simp); simp [this]
  | cons a l ih =>
    obtain ⟨h1, h2⟩ := ih (fun c hc => hl c (by simp [hc]))
    have := hl a (by simp)
    simp [this, h1, h2]

def Blank (b : List Char) : Prop := ∀ c ∈ b, isBlank c = true

theorem mBlanks_app {b r : List Char} (hb : Blank b) (hr : Stops isBlank r) :
    mBlanks (b ++ r) = b.length := by rw [mBlanks, (takeWhile_app hb hr).1]

theorem mInt_app {b r : List Char} (hb : ∀ c ∈ b, c.isDigit = true) (hr : Stops Char.isDigit r) :
    mInt (b ++ r) = b.length := by rw [mInt, (takeWhile_app hb hr).1]

theorem mGraph_app {b r : List Char} (hb : ∀ c ∈ b, isGraph c = true) (hr : Stops isGraph r) :
    mGraph (b ++ r) = b.length := by rw [mGraph, (takeWhile_app hb hr).1]

/-- Nothing, or a comment up to the end of the line. -/
def Comment (c : List Char) : Prop := c = [] ∨ ∃ t, c = '#' :: t ∧ ∀ x ∈ t, notNl x = true

/-- The end of a line. -/
def LineEnd (e : List Char) : Prop := ∃ b c, Blank b ∧ Comment c ∧ e = b ++ c ++ ['\n']

theorem mNl_comment {c : List Char} (hc : Comment c) (r : List Char) :
    mNl (c ++ '\n' :: r) = c.length + 1 := by
  rcases hc with rfl | ⟨t, rfl, ht⟩
  · simp [mNl]
  · have := takeWhile_app (r := '\n' :: r) ht (Stops.cons r (by decide))
    simp [mNl, this.1, this.2]

theorem comment_stops {c : List Char} (hc : Comment c) (r : List Char) :
    Stops isBlank (c ++ '\n' :: r) := by
  rcases hc with rfl | ⟨t, rfl, ht⟩ <;> exact Stops.cons _ (by decide)

theorem mEnd_app {e : List Char} (he : LineEnd e) (r : List Char) :
    mEnd (e ++ r) = e.length ∧ 0 < e.length := by
  obtain ⟨b, c, hb, hc, rfl⟩ := he
  have h := takeWhile_app hb (comment_stops hc r)
  have e1 : b ++ c ++ ['\n'] ++ r = b ++ (c ++ '\n' :: r) := by simp
  rw [e1, mEnd, h.2, mNl_comment hc, mBlanks_app hb (comment_stops hc r)]
  simp

/-- A keyword after blanks and before blanks. -/
theorem mKw_app {b kw sp r : List Char} (hb : Blank b) (hk : Stops isBlank kw) (hk0 : kw ≠ [])
    (hs : Blank sp) (hs0 : sp ≠ []) (hr : Stops isBlank r) :
    mKw kw (b ++ kw ++ sp ++ r) = (b ++ kw ++ sp).length := by
  have hst : Stops isBlank (kw ++ (sp ++ r)) := by
    intro c hc
    cases kw with
    | nil => exact absurd rfl hk0
    | cons a l => exact hk c (by simpa using hc)
  have h := takeWhile_app hb hst
  have e1 : b ++ kw ++ sp ++ r = b ++ (kw ++ (sp ++ r)) := by simp
  have hp : kw.isPrefixOf (kw ++ (sp ++ r)) = true := by
    rw [List.isPrefixOf_iff_prefix]; exact List.prefix_append _ _
  have hsl : sp.length ≠ 0 := by simpa using hs0
  rw [e1, mKw, h.2, if_pos hp, List.drop_left, mBlanks_app hs hr, if_neg hsl, mBlanks_app hb hst]
  simp
  omega

/-- Another keyword does not match. -/
theorem mKw_ne {b kw w : List Char} (hb : Blank b) (hw : Stops isBlank w)
    (h : ¬ ∃ c r, isBlank c = true ∧ w = kw ++ c :: r) : mKw kw (b ++ w) = 0 := by
  have ht := takeWhile_app hb hw
  rw [mKw, ht.2]
  by_cases hp : kw.isPrefixOf w = true
  · rw [if_pos hp]
    rw [List.isPrefixOf_iff_prefix] at hp
    obtain ⟨t, rfl⟩ := hp
    rw [List.drop_left, if_pos]
    cases t with
    | nil => simp [mBlanks]
    | cons c t =>
      have : isBlank c = false := by
        by_contra hc
        exact h ⟨c, t, by simpa using hc, rfl⟩
      simp [mBlanks, this]
  · rw [if_neg hp]

theorem mKwLine_zero {kw s : List Char} (h : mKw kw s = 0) : mKwLine kw s = 0 := by
  rw [mKwLine, if_pos h]

theorem mL_zero {s : List Char} (h : mKw ['l'] s = 0) : mL s = 0 := by
  rw [mL, mKwLine_zero h, ite_self]

/-- The rest after a number: a blank, a comment or a newline. -/
def Sep (r : List Char) : Prop := ∃ c t, r = c :: t ∧ (isBlank c = true ∨ c = '#' ∨ c = '\n')

theorem Sep.stops {r : List Char} (h : Sep r) :
    Stops Char.isDigit r ∧ r.head? ≠ some '.' ∧ mExp r = 0 ∧ mFrac r = 0 := by
  obtain ⟨c, t, rfl, hc⟩ := h
  have hc' : c = ' ' ∨ c = '\t' ∨ c = '#' ∨ c = '\n' := by
    rcases hc with hc | hc
    · simp only [isBlank, Bool.or_eq_true, decide_eq_true_eq] at hc; tauto
    · tauto
  rcases hc' with rfl | rfl | rfl | rfl <;>
    exact ⟨Stops.cons _ (by decide), by simp, by simp [mExp], by simp [mFrac]⟩

theorem blank_sep {b : List Char} (hb : Blank b) (hb0 : b ≠ []) (r : List Char) : Sep (b ++ r) := by
  obtain ⟨c, t, rfl⟩ := List.exists_cons_of_ne_nil hb0
  exact ⟨c, t ++ r, rfl, Or.inl (hb c (by simp))⟩

theorem lineEnd_sep {e : List Char} (he : LineEnd e) (r : List Char) : Sep (e ++ r) := by
  obtain ⟨b, c, hb, hc, rfl⟩ := he
  cases b with
  | cons a b => exact ⟨a, _, rfl, Or.inl (hb a (by simp))⟩
  | nil =>
    rcases hc with rfl | ⟨t, rfl, ht⟩
    · exact ⟨'\n', r, rfl, Or.inr (Or.inr rfl)⟩
    · exact ⟨'#', t ++ ['\n'] ++ r, rfl, Or.inr (Or.inl rfl)⟩

theorem LineEnd.tail {e : List Char} (he : LineEnd e) : ∃ b e', Blank b ∧ LineEnd e' ∧ e = b ++ e' ∧
    ∀ r, Stops isBlank (e' ++ r) := by
  obtain ⟨b, c, hb, hc, rfl⟩ := he
  refine ⟨b, c ++ ['\n'], hb, ⟨[], c, by simp [Blank], hc, by simp⟩, by simp, fun r => ?_⟩
  have := comment_stops hc r
  simpa using this

/-! ## The loop -/

/-- The scanner ends with `o`. -/
def Run {E : Type} (rules : E → List (Rule E)) (e : E) (s : List Char) (o : Out E) : Prop :=
  ∀ k, s.length ≤ k → lex rules k e s = o

variable {E : Type} {rules : E → List (Rule E)}

theorem Run.nil (e : E) : Run rules e [] (.ok e) := by
  intro k _
  cases k <;> rfl

/-- One token. -/
theorem Run.step {e e' : E} {t s : List Char} {o : Out E} {r : Rule E}
    (hm : munch (t ++ s) (rules e) = some r) (hl : r.len (t ++ s) = t.length) (h0 : 0 < t.length)
    (ha : r.act t e = .ok e') (hr : Run rules e' s o) : Run rules e (t ++ s) o := by
  intro k hk
  cases k with
  | zero => simp only [List.length_append] at hk; omega
  | succ k =>
    cases t with
    | nil => simp at h0
    | cons c t =>
      simp only [List.cons_append] at hm hl hk ⊢
      rw [lex, hm]
      simp only
      have e1 : (c :: (t ++ s)).take (r.len (c :: (t ++ s))) = c :: t := by
        rw [hl, ← List.cons_append, List.take_left]
      have e2 : (c :: (t ++ s)).drop (r.len (c :: (t ++ s))) = s := by
        rw [hl, ← List.cons_append, List.drop_left]
      rw [e1, e2, ha]
      exact hr k (by simp at hk; omega)

/-- A refusal. -/
theorem Run.stop {e : E} {s : List Char} {r : Rule E} (hs : s ≠ [])
    (hm : munch s (rules e) = some r) (ha : ∀ y, r.act y e = .null) : Run rules e s .null := by
  intro k hk
  obtain ⟨c, t, rfl⟩ := List.exists_cons_of_ne_nil hs
  cases k with
  | zero => simp at hk
  | succ k => rw [lex, hm]; simp only [ha]

/-- The rule taken has the longest match, of equally long ones the first. -/
theorem munch_spec (s : List Char) (l : List (Rule E)) :
    (munch s l = none → ∀ r ∈ l, r.len s = 0) ∧
    ∀ r, munch s l = some r → 0 < r.len s ∧ ∃ l1 l2, l = l1 ++ r :: l2 ∧
      (∀ q ∈ l1, q.len s < r.len s) ∧ ∀ q ∈ l2, q.len s ≤ r.len s := by
  induction l with
  | nil => simp [munch]
  | cons a l ih =>
    rw [munch]
    cases hm : munch s l with
    | none =>
      have h0 := ih.1 hm
      simp only
      split
      · rename_i ha
        exact ⟨fun _ r hr => by rcases List.mem_cons.1 hr with rfl | hr; exacts [ha, h0 r hr], by simp⟩
      · rename_i ha
        refine ⟨by simp, fun r hr => ?_⟩
        simp only [Option.some.injEq] at hr
        subst hr
        exact ⟨by omega, [], l, rfl, by simp, fun q hq => by rw [h0 q hq]; omega⟩
    | some q =>
      obtain ⟨hq, l1, l2, rfl, h1, h2⟩ := ih.2 q hm
      simp only
      split
      · rename_i ha
        refine ⟨by simp, fun r hr => ?_⟩
        simp only [Option.some.injEq] at hr
        subst hr
        refine ⟨by omega, [], _, rfl, by simp, fun x hx => ?_⟩
        rcases List.mem_append.1 hx with hx | hx
        · have := h1 x hx; omega
        · rcases List.mem_cons.1 hx with rfl | hx
          · exact ha
          · have := h2 x hx; omega
      · rename_i ha
        refine ⟨by simp, fun r hr => ?_⟩
        simp only [Option.some.injEq] at hr
        subst hr
        refine ⟨hq, a :: l1, l2, rfl, fun x hx => ?_, h2⟩
        rcases List.mem_cons.1 hx with rfl | hx
        · omega
        · exact h1 x hx

/-- A rule and the error rule. -/
theorem munch_pair {s : List Char} {r : Rule E} (h : 0 < r.len s) :
    munch s [r, errRule] = some r := by
  have hd : mDot s ≤ 1 := by
    cases s with
    | nil => simp [mDot]
    | cons c s => simp only [mDot]; split <;> omega
  simp only [munch, errRule]
  by_cases h0 : mDot s = 0
  · simp [h0, Nat.pos_iff_ne_zero.1 h]
  · simp only [h0, if_false]
    rw [if_pos (by omega)]

theorem mDot_le (s : List Char) : mDot s ≤ 1 := by
  cases s with
  | nil => simp [mDot]
  | cons c s => simp only [mDot]; split <;> omega

/-- If one rule before the error rule matches and the others do not, it is taken. -/
theorem munch_one {s : List Char} {l1 l2 : List (Rule E)} {r : Rule E}
    (h1 : ∀ q ∈ l1, q.len s = 0) (h2 : ∀ q ∈ l2, q.len s = 0) (h : 0 < r.len s) :
    munch s (l1 ++ r :: (l2 ++ [errRule])) = some r := by
  have hsp := munch_spec s (l1 ++ r :: (l2 ++ [errRule]))
  cases hm : munch s (l1 ++ r :: (l2 ++ [errRule])) with
  | none => have := hsp.1 hm r (by simp); omega
  | some q =>
    obtain ⟨hq, a, b, hab, ha, hb⟩ := hsp.2 q hm
    have hd : (errRule : Rule E).len s ≤ 1 := mDot_le s
    rw [List.append_eq_append_iff] at hab
    rcases hab with ⟨c, rfl, hc⟩ | ⟨c, rfl, hc⟩
    · cases c with
      | nil => simp at hc; rw [hc.1]
      | cons x c =>
        simp only [List.cons_append, List.cons.injEq] at hc
        obtain ⟨rfl, hc⟩ := hc
        have hlt := ha r (by simp)
        have hmem : q ∈ l2 ++ [errRule] := by rw [hc]; simp
        rcases List.mem_append.1 hmem with hx | hx
        · have := h2 q hx; omega
        · simp at hx; subst hx; omega
    · cases c with
      | nil => simp at hc; rw [hc.1]
      | cons x c =>
        simp only [List.cons_append, List.cons.injEq] at hc
        have := h1 q (by rw [hc.1]; simp)
        omega

/-- If no rule before the error rule matches, the error rule is taken. -/
theorem munch_err {s : List Char} {l : List (Rule E)} (h : ∀ q ∈ l, q.len s = 0)
    (hd : 0 < mDot s) : munch s (l ++ [errRule]) = some errRule := by
  have hsp := munch_spec s (l ++ [errRule])
  cases hm : munch s (l ++ [errRule]) with
  | none => have : (errRule : Rule E).len s = 0 := hsp.1 hm errRule (by simp)
            exact absurd this (by simp only [errRule]; omega)
  | some q =>
    obtain ⟨hq, a, b, hab, -, -⟩ := hsp.2 q hm
    have hmem : q ∈ l ++ [errRule] := by rw [hab]; simp
    rcases List.mem_append.1 hmem with hx | hx
    · have := h q hx; omega
    · simp at hx; rw [hx]

end Verif.Flex
