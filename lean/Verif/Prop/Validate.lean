import Verif.Model.Validate
import Verif.Proof.Mat
import Mathlib.Analysis.InnerProductSpace.PiL2
import Mathlib.Tactic.Linarith

/-! # C121: the validators accept the valid data and nothing else -/

namespace Verif.Validate

variable {K : Type} [LinearOrder K]

/-- the double is a number and in the interval. -/
def Within (x lo hi : Option K) : Prop :=
  ∃ v l h, x = some v ∧ lo = some l ∧ hi = some h ∧ l ≤ v ∧ v ≤ h

/-- C121: `aa_valid_f`, for all doubles including those that are not numbers. -/
theorem C121_f (x lo hi : Option K) : validF x lo hi = 0 ↔ Within x lo hi := by
  unfold validF Within
  rcases x with - | v <;> rcases lo with - | l <;> rcases hi with - | h <;> simp [le]

/-- element `i` is a number not below the given lower bound and not above the given upper
bound. -/
def InBounds (min max : Option (Nat → Option K)) (x : Nat → Option K) (i : Nat) : Prop :=
  ∃ v, x i = some v ∧ (∀ a, min = some a → ∃ l, a i = some l ∧ l ≤ v)
    ∧ (∀ b, max = some b → ∃ h, b i = some h ∧ v ≤ h)

/-- the first `n` elements of the array, and of the bounds that are given, are numbers. -/
def Numbers (n : Nat) (x : Nat → Option K) : Prop := ∀ i < n, (x i).isSome

theorem toInt_small (n : Nat) (h : n < 2 ^ 31) : (toInt n).toNat = n := by
  unfold toInt
  have : n % 2 ^ 32 = n := Nat.mod_eq_of_lt (by omega)
  simp only [this, if_pos h, Int.toNat_natCast]

theorem scan_spec (p : Nat → Bool) : ∀ k i,
    (scan p k i = 0 ∧ ∀ j, i ≤ j → j < i + k → p j = false)
    ∨ ∃ j, i ≤ j ∧ j < i + k ∧ p j = true ∧ scan p k i = j + 1
        ∧ ∀ l, i ≤ l → l < j → p l = false
  | 0, i => .inl ⟨rfl, fun j h1 h2 => absurd h2 (by omega)⟩
  | k + 1, i => by
    unfold scan
    cases h : p i
    · rcases scan_spec p k (i + 1) with ⟨e, f⟩ | ⟨j, h1, h2, h3, h4, h5⟩
      · refine .inl ⟨by simpa using e, fun j h1 h2 => ?_⟩
        by_cases e : j = i
        · rw [e, h]
        · exact f j (by omega) (by omega)
      · refine .inr ⟨j, by omega, by omega, h3, by simpa using h4, fun l l1 l2 => ?_⟩
        by_cases e : l = i
        · rw [e, h]
        · exact h5 l (by omega) l2
    · exact .inr ⟨i, le_refl _, by omega, h, by simp, fun l l1 l2 => absurd l2 (by omega)⟩

theorem bad_iff (min max : Option (Nat → Option K)) (x : Nat → Option K) (i : Nat)
    (hx : (x i).isSome) (h1 : ∀ a, min = some a → (a i).isSome)
    (h2 : ∀ b, max = some b → (b i).isSome) :
    bad min max x i = false ↔ InBounds min max x i := by
  obtain ⟨v, hv⟩ := Option.isSome_iff_exists.1 hx
  unfold bad InBounds
  rw [Bool.or_eq_false_iff]
  constructor
  · rintro ⟨g1, g2⟩
    refine ⟨v, hv, ?_, ?_⟩
    · rintro a rfl
      obtain ⟨l, hl⟩ := Option.isSome_iff_exists.1 (h1 a rfl)
      exact ⟨l, hl, by simpa [hv, hl, lt] using g1⟩
    · rintro b rfl
      obtain ⟨l, hl⟩ := Option.isSome_iff_exists.1 (h2 b rfl)
      exact ⟨l, hl, by simpa [hv, hl, lt] using g2⟩
  · rintro ⟨w, hw, g1, g2⟩
    rw [hv] at hw
    cases hw
    constructor
    · rcases min with - | a
      · rfl
      · obtain ⟨l, hl, g⟩ := g1 a rfl
        simpa [hv, hl, lt] using g
    · rcases max with - | b
      · rfl
      · obtain ⟨l, hl, g⟩ := g2 b rfl
        simpa [hv, hl, lt] using g

/-- C121: `aa_valid_v` on fewer than 2^31 elements that are all numbers: negative for the
wrong count, else one more than the first index out of bounds, else zero.
The full statement is for all counts and all doubles; see `C121_violates_nan` and
`C121_violates_count`. -/
theorem C121_v_partial (x : Nat → Option K) (n nd : Nat) (min max : Option (Nat → Option K))
    (hn : n < 2 ^ 31) (hx : Numbers n x) (h1 : ∀ a, min = some a → Numbers n a)
    (h2 : ∀ b, max = some b → Numbers n b) :
    (n ≠ nd → validV x n min max nd < 0)
    ∧ (n = nd → (∀ i < n, InBounds min max x i) → validV x n min max nd = 0)
    ∧ (∀ i, n = nd → i < n → ¬ InBounds min max x i → (∀ j < i, InBounds min max x j) →
        validV x n min max nd = i + 1) := by
  have key : ∀ i < n, (bad min max x i = false ↔ InBounds min max x i) := fun i hi =>
    bad_iff min max x i (hx i hi) (fun a e => h1 a e i hi) (fun b e => h2 b e i hi)
  have none_ok : ¬ (min.isSome || max.isSome) = true → ∀ i < n, InBounds min max x i := by
    intro h i hi
    rw [← key i hi]
    rcases min with - | a <;> rcases max with - | b <;> simp_all [bad]
  refine ⟨fun h => by unfold validV; rw [if_pos h]; omega, fun e h => ?_, fun i e hi hb hj => ?_⟩
  · unfold validV
    rw [if_neg (by simpa using e), toInt_small n hn]
    split
    · rcases scan_spec (bad min max x) n 0 with ⟨g, -⟩ | ⟨j, -, j2, j3, -⟩
      · exact g
      · rw [(key j (by omega)).2 (h j (by omega))] at j3
        exact absurd j3 (by simp)
    · rfl
  · unfold validV
    rw [if_neg (by simpa using e), toInt_small n hn]
    split <;> rename_i hs
    · rcases scan_spec (bad min max x) n 0 with ⟨-, g⟩ | ⟨j, -, j2, j3, j4, j5⟩
      · exact absurd ((key i hi).1 (g i (by omega) (by omega))) hb
      · rw [j4]
        have hij : ¬ j < i := fun h => by
          rw [(key j (by omega)).2 (hj j h)] at j3
          exact absurd j3 (by simp)
        have hji : ¬ i < j := fun h => hb ((key i hi).1 (j5 i (by omega) h))
        have : i = j := by omega
        rw [this]
    · exact absurd (none_ok hs i hi) hb

/-- C121: an element that is not a number is accepted by `aa_valid_v`. -/
theorem C121_violates_nan : ∃ (x : Nat → Option Int) (a b : Nat → Option Int),
    validV x 1 (some a) (some b) 1 = 0 ∧ ¬ InBounds (some a) (some b) x 0
    ∧ validF (x 0) (a 0) (b 0) ≠ 0 := by
  refine ⟨fun _ => none, fun _ => some 0, fun _ => some 1, by decide, ?_, by decide⟩
  rintro ⟨v, h, -⟩
  exact absurd h (by simp)

/-- C121: of an array of 2^31 elements (16 GiB) none is looked at. -/
theorem C121_violates_count : ∃ (x a : Nat → Option Int),
    validV x (2 ^ 31) (some a) none (2 ^ 31) = 0
    ∧ ∀ i < 2 ^ 31, (x i).isSome ∧ ¬ InBounds (some a) none x i := by
  refine ⟨fun _ => some 0, fun _ => some 1, by decide, fun i _ => ⟨rfl, ?_⟩⟩
  rintro ⟨v, h, g, -⟩
  obtain ⟨l, hl, hv⟩ := g _ rfl
  cases h; cases hl
  exact absurd hv (by decide)

/-- C121: `aa_valid_vunit`, exact arithmetic. -/
theorem C121_vunit (x n : Nat) (tol : ℝ) (m : Mat.Mem ℝ) :
    validVunit x n tol m = 0 ↔ |‖WithLp.toLp 2 (fun i : Fin n => m (x + i))‖ - 1| ≤ tol := by
  have hs : La.dot n x x m = ∑ i : Fin n, m (x + i) * m (x + i) := by
    unfold La.dot
    rw [Fin.sum_univ_eq_sum_range (fun i => m (x + i) * m (x + i)) n]
    induction n with
    | zero => rfl
    | succ n ih => rw [Mat.forN_snoc, Finset.sum_range_succ, ih]
  have hn : La.norm n x m = ‖WithLp.toLp 2 (fun i : Fin n => m (x + i))‖ := by
    unfold La.norm
    rw [hs, EuclideanSpace.norm_eq]
    congr 1
    refine Finset.sum_congr rfl fun i _ => ?_
    rw [Real.norm_eq_abs, sq_abs, sq]
  unfold validVunit Tf.feq
  rw [hn]
  simp

/-- nanoseconds of a time. -/
def nanos (t : Time.TS) : Int := t.sec * 10 ^ 9 + t.nsec

/-- nanoseconds within a second. -/
def Norm (t : Time.TS) : Prop := 0 ≤ t.nsec ∧ t.nsec < 10 ^ 9

/-- the difference of the seconds is a `long`. -/
def Near (a b : Time.TS) : Prop := -(2 ^ 63) ≤ a.sec - b.sec ∧ a.sec - b.sec < 2 ^ 63

theorem cmpLong_spec (a b : Time.TS) (ha : Norm a) (hb : Norm b) (h : Near a b) :
    ∃ c, cmpLong a b = some c ∧ (c < 0 ↔ nanos a < nanos b) ∧ (0 < c ↔ nanos b < nanos a) := by
  unfold Norm at ha hb
  unfold Near at h
  unfold cmpLong subLong nanos
  by_cases e : a.sec = b.sec
  · rw [if_neg (by simpa using e), if_pos (by omega)]
    exact ⟨_, rfl, by omega, by omega⟩
  · rw [if_pos e, if_pos h]
    exact ⟨_, rfl, by omega, by omega⟩

/-- C121: `aa_valid_timespec` on normalised times whose seconds have a difference that is a
`long`. The full statement is for all normalised times; see `C121_violates_time`. -/
theorem C121_timespec_partial (tm before after : Time.TS) (h : Norm tm) (h1 : Norm before)
    (h2 : Norm after) (n1 : Near tm before) (n2 : Near tm after) :
    ∃ r, validTimespec tm before after = some r
      ∧ (r = 0 ↔ nanos before ≤ nanos tm ∧ nanos tm ≤ nanos after) := by
  obtain ⟨c, hc, c1, -⟩ := cmpLong_spec tm before h h1 n1
  obtain ⟨d, hd, -, d2⟩ := cmpLong_spec tm after h h2 n2
  unfold validTimespec
  simp only [hc, hd]
  by_cases g : c < 0
  · rw [if_pos g]
    exact ⟨1, rfl, by omega⟩
  · rw [if_neg g]
    refine ⟨_, rfl, ?_⟩
    split <;> omega

/-- C121: the comparison of a time far in the future with the beginning of time overflows. -/
theorem C121_violates_time : ∃ tm before after : Time.TS, Norm tm ∧ Norm before ∧ Norm after
    ∧ tm.sec < 2 ^ 63 ∧ -(2 ^ 63) ≤ before.sec
    ∧ nanos before ≤ nanos tm ∧ nanos tm ≤ nanos after ∧ validTimespec tm before after = none := by
  refine ⟨⟨0, 0⟩, ⟨-(2 ^ 63), 0⟩, ⟨1, 0⟩, ?_, ?_, ?_, by decide, by decide, by decide, by decide,
    by decide⟩ <;> exact ⟨by decide, by decide⟩

/-- three numbers, the second of them above its bound. -/
example : validV (fun i => [some (1 : Int), some 5, some 3].getD i none) 3
      (some fun _ => some 0) (some fun i => some (2 + i)) 3 = 2 := by decide

example : validF (some (1 : Int)) (some 0) (some 2) = 0 ∧ validF (some (3 : Int)) (some 0) (some 2) = -1
    ∧ validF none (some (0 : Int)) (some 2) = -1 := by decide

example : validTimespec ⟨5, 7⟩ ⟨5, 6⟩ ⟨6, 0⟩ = some 0 ∧ validTimespec ⟨5, 7⟩ ⟨5, 8⟩ ⟨6, 0⟩ = some 1
    ∧ Norm ⟨5, 7⟩ ∧ Near ⟨5, 7⟩ ⟨6, 0⟩ := by
  refine ⟨by decide, by decide, ⟨by decide, by decide⟩, ⟨by decide, by decide⟩⟩

end Verif.Validate
