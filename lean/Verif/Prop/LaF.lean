import Verif.Model.LaF
import Verif.Prop.La
import Mathlib.Analysis.InnerProductSpace.Projection.Basic
import Mathlib.LinearAlgebra.AffineSpace.AffineMap
import Mathlib.LinearAlgebra.Matrix.PosDef

/-!
# C153: vector functions of the Fortran module

Specification: the objects of Mathlib for the Euclidean space of dimension `n`.
-/

namespace Verif.LaF

open Matrix

variable {n m : Nat}

/-- an array as a vector of Euclidean space. -/
noncomputable def ev (x : Fin n → ℝ) : EuclideanSpace ℝ (Fin n) := WithLp.toLp 2 x

theorem dot_ev (x y : Fin n → ℝ) : dot x y = inner ℝ (ev x) (ev y) := by
  simp [dot, ev, PiLp.inner_apply, mul_comm]

theorem dot_self (x : Fin n → ℝ) : dot x x = ‖ev x‖ ^ 2 := by
  rw [dot_ev, real_inner_self_eq_norm_sq]

/-! ## The norm -/

/-- what `scl` and `ssq` mean after the elements `x`. -/
structure Scanned (x : List ℝ) (s : ℝ × ℝ) : Prop where
  nonneg : 0 ≤ s.1
  bound : ∀ a ∈ x, |a| ≤ s.1
  attained : s.1 = 0 ∨ ∃ a ∈ x, |a| = s.1
  lo : 1 ≤ s.2
  hi : s.2 ≤ max 1 (x.length : ℝ)
  sum : s.1 ^ 2 * s.2 = (x.map (· ^ 2)).sum
  pos : s.1 = 0 → s.2 = 1

theorem scanned_step {x : List ℝ} {s : ℝ × ℝ} (h : Scanned x s) (a : ℝ) : Scanned (x ++ [a]) (step s a) := by
  have hsq : ∀ s' : ℝ × ℝ, s'.1 ^ 2 * s'.2 = s.1 ^ 2 * s.2 + a ^ 2 →
      s'.1 ^ 2 * s'.2 = ((x ++ [a]).map (· ^ 2)).sum := by
    intro s' e; rw [e, h.sum]; simp
  have hl : (max 1 ((x ++ [a]).length : ℝ)) = x.length + 1 := by
    rw [List.length_append]; push_cast; simp
  have hlen : (0 : ℝ) ≤ x.length := Nat.cast_nonneg _
  have hh : s.2 ≤ x.length + 1 := h.hi.trans (max_le (by linarith) (by linarith))
  unfold step
  split_ifs with h1 h2
  · have hr : s.1 / |a| ≤ 1 := (div_le_one h1).2 h2.le
    have hr0 : 0 ≤ s.1 / |a| := div_nonneg h.nonneg h1.le
    refine ⟨h1.le, ?_, .inr ⟨a, by simp, rfl⟩, ?_, ?_, hsq _ ?_, fun e => absurd e h1.ne'⟩
    · intro b hb
      rcases List.mem_append.1 hb with hb | hb
      · exact (h.bound b hb).trans h2.le
      · rw [List.mem_singleton.1 hb]
    · have : 0 ≤ s.2 * (s.1 / |a|) ^ 2 := mul_nonneg (by linarith [h.lo]) (sq_nonneg _)
      simp only; linarith
    · rw [hl]
      simp only
      by_cases hx : x.length = 0
      · have : x = [] := List.length_eq_zero_iff.1 hx
        subst this
        have e0 : s.1 = 0 := by
          rcases h.attained with e | ⟨b, hb, _⟩
          · exact e
          · cases hb
        rw [e0]; simp
      · have : (1 : ℝ) ≤ x.length := by exact_mod_cast Nat.one_le_iff_ne_zero.2 hx
        have h3 : s.2 ≤ x.length := h.hi.trans (max_le this le_rfl)
        have h4 : (s.1 / |a|) ^ 2 ≤ 1 := by nlinarith
        nlinarith [h.lo]
    · simp only
      field_simp
      rw [sq_abs]; ring
  · have hs : 0 < s.1 := lt_of_lt_of_le h1 (not_lt.1 h2)
    have hr : |a| / s.1 ≤ 1 := (div_le_one hs).2 (not_lt.1 h2)
    have hr0 : 0 ≤ |a| / s.1 := div_nonneg h1.le hs.le
    refine ⟨h.nonneg, ?_, ?_, ?_, ?_, hsq _ ?_, fun e => absurd e hs.ne'⟩
    · intro b hb
      rcases List.mem_append.1 hb with hb | hb
      · exact h.bound b hb
      · rw [List.mem_singleton.1 hb]; exact not_lt.1 h2
    · rcases h.attained with e | ⟨b, hb, e⟩
      · exact .inl e
      · exact .inr ⟨b, by simp [hb], e⟩
    · have := sq_nonneg (|a| / s.1)
      simp only; linarith [h.lo]
    · rw [hl]
      simp only
      have : (1 : ℝ) ≤ x.length := by
        rcases h.attained with e | ⟨b, hb, _⟩
        · exact absurd e hs.ne'
        · exact_mod_cast List.length_pos_of_mem hb
      have h3 : s.2 ≤ x.length := h.hi.trans (max_le this le_rfl)
      nlinarith
    · simp only
      field_simp
      rw [sq_abs]
  · have ha : a = 0 := by
      have := abs_nonneg a
      exact abs_eq_zero.1 (le_antisymm (not_lt.1 h1) this)
    subst ha
    refine ⟨h.nonneg, ?_, ?_, h.lo, ?_, hsq _ (by ring), h.pos⟩
    · intro b hb
      rcases List.mem_append.1 hb with hb | hb
      · exact h.bound b hb
      · rw [List.mem_singleton.1 hb, abs_zero]; exact h.nonneg
    · rcases h.attained with e | ⟨b, hb, e⟩
      · exact .inl e
      · exact .inr ⟨b, by simp [hb], e⟩
    · rw [hl]; exact hh

theorem scanned (x : List ℝ) : Scanned x (scan x) := by
  unfold scan
  induction x using List.reverseRecOn with
  | nil => exact ⟨le_rfl, by simp, .inl rfl, le_rfl, by simp, by simp, fun _ => rfl⟩
  | append_singleton x a ih => rw [List.foldl_append]; exact scanned_step ih a

/-- **C153 (norm).** The Euclidean norm; on the way, after any number of elements, the scale is the largest magnitude
so far and the scaled sum of squares lies between one and their number. -/
theorem C153_norm2 (x : Fin n → ℝ) :
    norm2 x = ‖ev x‖ ∧
    ∀ k ≤ n, 0 < k →
      let s := scan ((List.ofFn x).take k)
      IsLUB {a | ∃ i : Fin n, i < k ∧ a = |x i|} s.1 ∧ 1 ≤ s.2 ∧ s.2 ≤ k := by
  constructor
  · have h := scanned (List.ofFn x)
    have e : (‖ev x‖) ^ 2 = ((List.ofFn x).map (· ^ 2)).sum := by
      rw [EuclideanSpace.norm_sq_eq, List.map_ofFn, List.sum_ofFn]
      exact Finset.sum_congr rfl fun i _ => by simp [ev]
    unfold norm2
    rw [← Real.sqrt_sq (norm_nonneg (ev x)), e, ← h.sum, Real.sqrt_mul (sq_nonneg _), Real.sqrt_sq h.nonneg]
  · intro k hk hk0 s
    have h := scanned ((List.ofFn x).take k)
    have hm : ∀ a, a ∈ (List.ofFn x).take k ↔ ∃ i : Fin n, i < k ∧ a = x i := by
      intro a
      rw [List.mem_take_iff_getElem]
      constructor
      · rintro ⟨i, hi, e⟩
        have hi' : i < n := by simp at hi; omega
        refine ⟨⟨i, hi'⟩, by simp at hi; simp; omega, ?_⟩
        rw [← e]; simp
      · rintro ⟨i, hi, e⟩
        exact ⟨i, by simp; omega, by rw [e]; simp⟩
    have hlen : ((List.ofFn x).take k).length = k := by simp [hk]
    have hk1 : (1 : ℝ) ≤ k := by exact_mod_cast hk0
    refine ⟨⟨?_, ?_⟩, h.lo, h.hi.trans (by rw [hlen]; exact max_le hk1 le_rfl)⟩
    · rintro a ⟨i, hi, rfl⟩
      exact h.bound _ ((hm _).2 ⟨i, hi, rfl⟩)
    · intro b hb
      rcases h.attained with e | ⟨a, ha, e⟩
      · have h0 : 0 < n := by omega
        have := hb ⟨⟨0, h0⟩, by simpa using hk0, rfl⟩
        simp only [s, e]
        exact (abs_nonneg _).trans this
      · obtain ⟨i, hi, rfl⟩ := (hm a).1 ha
        simp only [s, ← e]
        exact hb ⟨i, hi, rfl⟩

/-- **C153 (unit).** Fails exactly for the zero vector; the result has norm one and the direction of the argument. -/
theorem C153_unit (x : Fin n → ℝ) :
    (unit x = none ↔ ev x = 0) ∧
    ∀ y, unit x = some y → ‖ev y‖ = 1 ∧ ev y = ‖ev x‖⁻¹ • ev x ∧ SameRay ℝ (ev y) (ev x) := by
  unfold unit
  rw [(C153_norm2 x).1]
  constructor
  · split_ifs with h
    · simpa using h
    · simpa using h
  · intro y hy
    split_ifs at hy with h
    obtain rfl := Option.some.inj hy
    have e : ev (fun i => x i / ‖ev x‖) = ‖ev x‖⁻¹ • ev x := by
      ext i; simp [ev, div_eq_inv_mul]
    refine ⟨?_, e, ?_⟩
    · rw [e, norm_smul, norm_inv, norm_norm, inv_mul_cancel₀ h]
    · rw [e]; exact SameRay.sameRay_nonneg_smul_left _ (by positivity)

/-- **C153 (projection).** On the line of `b` and on its orthogonal complement. -/
theorem C153_proj (a b : Fin n → ℝ) :
    (proj a b = none ↔ ev b = 0) ∧ (orth a b = none ↔ ev b = 0) ∧
    (∀ r, proj a b = some r → ev r = (ℝ ∙ ev b).starProjection (ev a)) ∧
    ∀ r, orth a b = some r → ev r = (ℝ ∙ ev b)ᗮ.starProjection (ev a) := by
  have key : ev (fun i => dot a b * b i / dot b b) = (ℝ ∙ ev b).starProjection (ev a) := by
    rw [Submodule.starProjection_singleton, real_inner_comm, ← dot_ev, dot_self]
    ext i
    simp [ev]; ring
  unfold proj orth
  refine ⟨?_, ?_, ?_, ?_⟩
  · rw [dot_self]; split_ifs with h
    · simpa using h
    · simpa using h
  · rw [dot_self]; split_ifs with h
    · simpa using h
    · simpa using h
  · intro r hr
    split_ifs at hr
    obtain rfl := Option.some.inj hr
    exact key
  · intro r hr
    split_ifs at hr
    obtain rfl := Option.some.inj hr
    rw [Submodule.starProjection_orthogonal_val, ← key]
    ext i; simp [ev]

theorem foldl_sums (f g : Fin n → ℝ) (l : List (Fin n)) (s c : ℝ) :
    l.foldl (fun (sc : ℝ × ℝ) i => (sc.1 + f i, sc.2 + g i)) (s, c) = (s + (l.map f).sum, c + (l.map g).sum) := by
  induction l generalizing s c with
  | nil => simp
  | cons a l ih => simp only [List.foldl_cons, List.map_cons, List.sum_cons]; rw [ih, add_assoc, add_assoc]

/-- **C153 (angle).** -/
theorem C153_angle (x y : Fin n → ℝ) (hx : ev x ≠ 0) (hy : ev y ≠ 0) :
    angle x y = some (InnerProductGeometry.angle (ev x) (ev y)) := by
  let M : Nat → ℝ := fun k => if h : k < n then x ⟨k, h⟩ else if h : k - n < n then y ⟨k - n, h⟩ else 0
  have mx : ∀ i : Fin n, M (0 + i * 1) = x i := fun i => by simp [M]
  have my : ∀ i : Fin n, M (n + i * 1) = y i := fun i => by simp [M]
  have ex : La.evec n 0 1 M = ev x := by ext i; rw [La.evec_apply]; exact mx i
  have ey : La.evec n n 1 M = ev y := by ext i; rw [La.evec_apply]; exact my i
  have h := La.C36_angle n 0 1 n 1 M (by rwa [ex]) (by rwa [ey])
  rw [ex, ey] at h
  unfold angle
  simp only [dot_self, Real.sqrt_sq (norm_nonneg _), foldl_sums, zero_add]
  have e1 : ((List.finRange n).map fun i => (‖ev y‖ * x i - ‖ev x‖ * y i) ^ 2).sum =
      ∑ i, (‖ev y‖ * x i - ‖ev x‖ * y i) ^ 2 := by rw [← List.ofFn_eq_map, List.sum_ofFn]
  have e2 : ((List.finRange n).map fun i => (‖ev y‖ * x i + ‖ev x‖ * y i) ^ 2).sum =
      ∑ i, (‖ev y‖ * x i + ‖ev x‖ * y i) ^ 2 := by rw [← List.ofFn_eq_map, List.sum_ofFn]
  rw [e1, e2]
  have nx : 0 < ‖ev x‖ := norm_pos_iff.2 hx
  have ny : 0 < ‖ev y‖ := norm_pos_iff.2 hy
  have tot : ∑ i, (‖ev y‖ * x i - ‖ev x‖ * y i) ^ 2 + ∑ i, (‖ev y‖ * x i + ‖ev x‖ * y i) ^ 2 =
      4 * (‖ev x‖ * ‖ev y‖) ^ 2 := by
    have a := EuclideanSpace.norm_sq_eq (ev x)
    have b := EuclideanSpace.norm_sq_eq (ev y)
    simp only [ev, Real.norm_eq_abs, sq_abs] at a b
    have c : ∀ i, (‖ev y‖ * x i - ‖ev x‖ * y i) ^ 2 + (‖ev y‖ * x i + ‖ev x‖ * y i) ^ 2 =
        2 * ‖ev y‖ ^ 2 * x i ^ 2 + 2 * ‖ev x‖ ^ 2 * y i ^ 2 := fun i => by ring
    rw [← Finset.sum_add_distrib, Finset.sum_congr rfl fun i _ => c i, Finset.sum_add_distrib, ← Finset.mul_sum,
      ← Finset.mul_sum, ← a, ← b]
    simp only [ev]; ring
  rw [if_neg]
  · rw [← h]
    unfold La.angle
    simp only [Mat.forN_sum n (fun k => M (0 + k * 1) * M (0 + k * 1)),
      Mat.forN_sum n (fun k => M (n + k * 1) * M (n + k * 1)), zero_add (Finset.sum _ _), La.sqrt_norm]
    have es : ∀ (f : ℝ → ℝ → ℝ), Mat.forN n (fun k a => a + f (M (0 + k * 1)) (M (n + k * 1))) 0 =
        ∑ i, f (x i) (y i) := by
      intro f
      rw [Mat.forN_sum n (fun k => f (M (0 + k * 1)) (M (n + k * 1))), zero_add, Finset.sum_range]
      exact Finset.sum_congr rfl fun i _ => by rw [mx, my]
    have s1 := es (fun a b => (‖La.evec n n 1 M‖ * a - ‖La.evec n 0 1 M‖ * b) *
      (‖La.evec n n 1 M‖ * a - ‖La.evec n 0 1 M‖ * b))
    have s2 := es (fun a b => (‖La.evec n n 1 M‖ * a + ‖La.evec n 0 1 M‖ * b) *
      (‖La.evec n n 1 M‖ * a + ‖La.evec n 0 1 M‖ * b))
    rw [s1, s2, ex, ey]
    simp only [pow_two]
  · rintro ⟨h1, h2⟩
    rw [Real.sqrt_eq_zero (Finset.sum_nonneg fun i _ => sq_nonneg _)] at h1 h2
    rw [h1, h2] at tot
    have := mul_pos nx ny
    nlinarith

/-- **C153 (cross product, difference, interpolation).** -/
theorem C153_elementary :
    (∀ x y : Fin 3 → ℝ, cross x y = x ⨯₃ y) ∧
    (∀ x y : Fin n → ℝ, ssd x y = dist (ev x) (ev y) ^ 2) ∧
    ∀ (u : ℝ) (v1 v2 : Fin n → ℝ), ev (lerp u v1 v2) = AffineMap.lineMap (ev v1) (ev v2) u := by
  refine ⟨fun x y => ?_, fun x y => ?_, fun u v1 v2 => ?_⟩
  · rw [cross_apply]; unfold cross
    congr 1; · ring
    congr 1; · ring
    congr 1; ring
  · rw [dist_eq_norm, EuclideanSpace.norm_sq_eq]
    exact Finset.sum_congr rfl fun i _ => by simp [ev]
  · ext i
    simp [lerp, ev, AffineMap.lineMap_apply]; ring

/-- the point in a column. -/
noncomputable def col (A : Fin m → Fin n → ℝ) (k : Fin n) : EuclideanSpace ℝ (Fin m) := ev fun i => A i k

/-- **C153 (distances of columns).** All pairs of columns; the C interface does it when `B` has no more columns than
`A`. -/
theorem C153_colssd_partial {p : Nat} (A : Fin m → Fin n → ℝ) (B : Fin m → Fin p → ℝ) :
    (∃ C, colssd A B n p = some C ∧ ∀ i j, C i j = dist (col A i) (col B j) ^ 2) ∧
    (p ≤ n → ∀ B' : Fin m → Nat → ℝ, (∀ k (j : Fin p), B' k j = B k j) →
      ∃ C : Fin n → Fin p → ℝ, colssdC A B' = some C ∧ ∀ i j, C i j = dist (col A i) (col B j) ^ 2) := by
  constructor
  · unfold colssd
    rw [dif_pos (.inl ⟨le_rfl, le_rfl⟩)]
    exact ⟨_, rfl, fun i j => C153_elementary.2.1 _ _⟩
  · intro hp B' hB
    unfold colssdC colssd
    rw [dif_pos (.inl ⟨le_rfl, hp⟩)]
    refine ⟨_, rfl, fun i j => ?_⟩
    rw [C153_elementary.2.1]
    simp only [col]
    congr 3
    funext k; exact hB k j

/-- The C interface declares `B` with as many columns as `A`, and so reads outside of it if it has more. -/
theorem C153_colssd_violates (m n p : Nat) (hn : 0 < n) (hp : n < p) (A : Fin m → Fin n → ℝ) (B : Fin m → Nat → ℝ) :
    (colssdC A B : Option (Fin n → Fin p → ℝ)) = none := by
  unfold colssdC colssd
  rw [dif_neg (by omega)]

/-- **C153 (means).** The mean of the columns is the point with the least sum of squared distances from them, and
there is no other; that of the rows likewise. -/
theorem C153_mean (A : Fin m → Fin n → ℝ) (hn : 0 < n) (hm : 0 < m) :
    (∃ x, colmean A = some x ∧ ∀ y, y ≠ x → ∑ k, dist (col A k) (ev x) ^ 2 < ∑ k, dist (col A k) (ev y) ^ 2) ∧
    ∃ x, rowmean A = some x ∧
      ∀ y, y ≠ x → ∑ k, dist (ev (A k)) (ev x) ^ 2 < ∑ k, dist (ev (A k)) (ev y) ^ 2 := by
  have key : ∀ {a b : Nat} (_ : 0 < b) (F : Fin b → Fin a → ℝ) (y : Fin a → ℝ), (y ≠ fun i => (∑ k, F k i) / b) →
      ∑ k, dist (ev (F k)) (ev fun i => (∑ k, F k i) / b) ^ 2 < ∑ k, dist (ev (F k)) (ev y) ^ 2 := by
    intro a b hb F y hy
    have hb' : (0 : ℝ) < b := by exact_mod_cast hb
    obtain ⟨i0, hi0⟩ : ∃ i, y i ≠ (∑ k, F k i) / b := by
      by_contra h; push Not at h; exact hy (funext h)
    simp only [← C153_elementary.2.1, ssd]
    rw [Finset.sum_comm, Finset.sum_comm (γ := Fin b)]
    have e : ∀ i, ∑ k, (F k i - y i) ^ 2 = ∑ k, (F k i - (∑ k, F k i) / b) ^ 2 + b * (y i - (∑ k, F k i) / b) ^ 2 := by
      intro i
      have c : ∀ k, (F k i - y i) ^ 2 = (F k i - (∑ k, F k i) / b) ^ 2 +
          (-2 * (y i - (∑ k, F k i) / b) * F k i + (y i ^ 2 - ((∑ k, F k i) / b) ^ 2)) := fun k => by ring
      rw [Finset.sum_congr rfl fun k _ => c k, Finset.sum_add_distrib, Finset.sum_add_distrib, ← Finset.mul_sum]
      simp only [Finset.sum_const, Finset.card_univ, Fintype.card_fin, nsmul_eq_mul]
      rw [show ∑ k, F k i = b * ((∑ k, F k i) / b) by field_simp, mul_div_cancel_left₀ _ hb'.ne']
      generalize (∑ k, F k i) / (b : ℝ) = μ
      ring
    refine Finset.sum_lt_sum (fun i _ => ?_) ⟨i0, Finset.mem_univ _, ?_⟩
    · rw [e i]; have := mul_nonneg hb'.le (sq_nonneg (y i - (∑ k, F k i) / b)); linarith
    · rw [e i0]
      have := mul_pos hb' (pow_pos (abs_pos.2 (sub_ne_zero.2 hi0)) 2)
      rw [sq_abs] at this
      linarith
  have hn' : (n : ℝ) ≠ 0 := by exact_mod_cast hn.ne'
  have hm' : (m : ℝ) ≠ 0 := by exact_mod_cast hm.ne'
  refine ⟨⟨_, by rw [colmean, if_neg (fun h => hn' h.1)], fun y hy => ?_⟩,
    ⟨_, by rw [rowmean, if_neg (fun h => hm' h.1)], fun y hy => ?_⟩⟩
  · exact key hn (fun k i => A i k) y hy
  · exact key hm A y hy

theorem foldl_cov (A : Fin m → Fin n → ℝ) (x : Fin m → ℝ) (l : List (Fin n)) (E : Fin m → Fin m → ℝ) (i j : Fin m) :
    l.foldl (fun (E : Fin m → Fin m → ℝ) k => fun i j => E i j + (A i k - x i) * (A j k - x j)) E i j =
      E i j + (l.map fun k => (A i k - x i) * (A j k - x j)).sum := by
  induction l generalizing E with
  | nil => simp
  | cons a l ih => simp only [List.foldl_cons, List.map_cons, List.sum_cons]; rw [ih, add_assoc]

/-- **C153 (covariance, deviation).** The covariance matrix is positive semidefinite, gives the variance of the points
along every direction, and its diagonal has the squared deviations of the rows. -/
theorem C153_cov (A : Fin m → Fin n → ℝ) (x : Fin m → ℝ) (hn : 2 ≤ n) :
    ∃ E, colcov A x = some E ∧ (Matrix.of E).PosSemidef ∧
      (∀ d : Fin m → ℝ, ((n : ℝ) - 1) * (d ⬝ᵥ Matrix.of E *ᵥ d) = ∑ k, inner ℝ (ev d) (col A k - ev x) ^ 2) ∧
      ∀ i, ∃ s, vecstd (A i) (x i) = some s ∧ 0 ≤ s ∧ E i i = s ^ 2 := by
  have h2 : (2 : ℝ) ≤ n := by exact_mod_cast hn
  have hp : (0 : ℝ) < (n : ℝ) - 1 := by linarith
  let E : Fin m → Fin m → ℝ := fun i j => (∑ k, (A i k - x i) * (A j k - x j)) / ((n : ℝ) - 1)
  have hE : colcov A x = some E := by
    unfold colcov
    rw [if_neg (fun h => hp.ne' h.1)]
    congr 1; funext i j
    rw [foldl_cov, zero_add, ← List.ofFn_eq_map, List.sum_ofFn]
  have hd : ∀ d : Fin m → ℝ, ((n : ℝ) - 1) * (d ⬝ᵥ Matrix.of E *ᵥ d) = ∑ k, inner ℝ (ev d) (col A k - ev x) ^ 2 := by
    intro d
    have e1 : ∀ k, inner ℝ (ev d) (col A k - ev x) = ∑ i, d i * (A i k - x i) := by
      intro k
      have : col A k - ev x = ev (fun i => A i k - x i) := by ext i; simp [col, ev]
      rw [this, ← dot_ev]; rfl
    simp only [e1, dotProduct, mulVec, Matrix.of_apply, E, pow_two, Finset.sum_mul_sum]
    rw [Finset.sum_comm (γ := Fin n), Finset.mul_sum]
    refine Finset.sum_congr rfl fun i _ => ?_
    rw [Finset.sum_comm (γ := Fin n), Finset.mul_sum, Finset.mul_sum]
    refine Finset.sum_congr rfl fun j _ => ?_
    rw [div_mul_eq_mul_div, mul_div_assoc', mul_div_assoc', mul_div_cancel_left₀ _ hp.ne', Finset.sum_mul, Finset.mul_sum]
    exact Finset.sum_congr rfl fun k _ => by ring
  refine ⟨E, hE, ?_, hd, fun i => ?_⟩
  · refine Matrix.PosSemidef.of_dotProduct_mulVec_nonneg ?_ fun d => ?_
    · ext i j
      simp only [Matrix.conjTranspose_apply, Matrix.of_apply, star_trivial, E]
      congr 1
      exact Finset.sum_congr rfl fun k _ => by ring
    · rw [star_trivial]
      have := hd d
      have h0 : 0 ≤ ((n : ℝ) - 1) * (d ⬝ᵥ Matrix.of E *ᵥ d) := by
        rw [this]; exact Finset.sum_nonneg fun k _ => sq_nonneg _
      exact nonneg_of_mul_nonneg_right h0 hp
  · have h0 : 0 ≤ 1 / ((n : ℝ) - 1) * ∑ k, (A i k - x i) ^ 2 :=
      mul_nonneg (by positivity) (Finset.sum_nonneg fun k _ => sq_nonneg _)
    refine ⟨_, by rw [vecstd, if_neg (by rintro (h | h) <;> linarith)], Real.sqrt_nonneg _, ?_⟩
    rw [Real.sq_sqrt h0]
    simp only [E, pow_two]; ring

/-! ## Examples -/

/-- the loop of `norm2` on `(3, -4)`: the scale is 4 and the sum `1 + (3/4)²`. -/
example : scan [3, -4] = (4, 1 + (3 / 4) ^ 2) := by
  norm_num [scan, step]

example : norm2 (![3, -4] : Fin 2 → ℝ) = 5 := by
  rw [(C153_norm2 _).1, EuclideanSpace.norm_eq]
  norm_num [ev, Fin.sum_univ_two]
  rw [show (25 : ℝ) = 5 ^ 2 by norm_num, Real.sqrt_sq (by norm_num)]

/-- three points with mean 2 and deviation 1. -/
example : colmean (fun (_ : Fin 1) (k : Fin 3) => (k.val : ℝ) + 1) = some fun _ => 2 := by
  norm_num [colmean, Fin.sum_univ_three]

example : colcov (fun (_ : Fin 1) (k : Fin 3) => (k.val : ℝ) + 1) (fun _ => 2) = some fun _ _ => 1 := by
  norm_num [colcov, List.finRange_succ]


end Verif.LaF
