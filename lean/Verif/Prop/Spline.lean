import Verif.Model.Spline
import Verif.Prop.Mat
import Mathlib.Algebra.Polynomial.Derivative
import Mathlib.Algebra.Polynomial.Degree.Lemmas
import Mathlib.Tactic.FieldSimp
import Mathlib.Tactic.LinearCombination
import Mathlib.MeasureTheory.Integral.IntervalIntegral.IntegrationByParts
import Mathlib.Analysis.Calculus.Deriv.Polynomial
import Mathlib.Topology.Algebra.Polynomial

/-!
# C151: cubic and quintic splines

Specification: the polynomial of least degree with given values and derivatives at two times (`Polynomial` of
Mathlib), and the integral of the squared acceleration or jerk.
-/

namespace Verif.Spline

open Mat Polynomial

/-! ## Specification -/

/-- value and velocity at both ends. -/
structure Ends3 (tf x1 v1 x2 v2 : ℝ) (P : ℝ[X]) : Prop where
  deg : P.degree < 4
  x1 : P.eval 0 = x1
  v1 : P.derivative.eval 0 = v1
  x2 : P.eval tf = x2
  v2 : P.derivative.eval tf = v2

/-- value, velocity and acceleration at both ends. -/
structure Ends5 (tf x1 v1 a1 x2 v2 a2 : ℝ) (P : ℝ[X]) : Prop where
  deg : P.degree < 6
  x1 : P.eval 0 = x1
  v1 : P.derivative.eval 0 = v1
  a1 : P.derivative.derivative.eval 0 = a1
  x2 : P.eval tf = x2
  v2 : P.derivative.eval tf = v2
  a2 : P.derivative.derivative.eval tf = a2

/-- no element of one array is an element of the other. -/
def Apart (n : Nat) (a b : Arr) : Prop := ∀ i < n, ∀ j < n, a.1 + i * a.2 ≠ b.1 + j * b.2

/-- nothing but elements of these arrays is changed. -/
def Only (n : Nat) (os : List Arr) (m m' : Mem ℝ) : Prop :=
  ∀ x, (∀ o ∈ os, ∀ i < n, x ≠ o.1 + i * o.2) → m' x = m x

/-! ## Array assignments -/

theorem assign_ok {n : Nat} {o : Arr} {f : Nat → Mem ℝ → ℝ} (ins : List Arr) (ho : 0 < o.2)
    (hf : ∀ i < n, ∀ m m', (∀ a ∈ ins, ∀ k < n, el m a k = el m' a k) → f i m = f i m')
    (ha : ∀ a ∈ ins, Apart n a o) (m : Mem ℝ) :
    (∀ i < n, el (assign n o f m) o i = f i m) ∧ Only n [o] m (assign n o f m) := by
  have := forN_vec (K := ℝ) (v := ⟨n, o.1, o.2⟩) ho f
    (fun k hk m m' h => hf k hk m m' fun a haa l hl => h _ fun l' hl' _ => ha a haa l hl l' hl') m
  exact ⟨fun i hi => this.1 i hi, fun x hx => this.2 x fun i hi => hx o (by simp) i hi⟩

theorem only_el {n : Nat} {os : List Arr} {m m' : Mem ℝ} (h : Only n os m m') {a : Arr}
    (ha : ∀ o ∈ os, Apart n a o) {i : Nat} (hi : i < n) : el m' a i = el m a i :=
  h _ fun o ho j hj => ha o ho i hi j hj

theorem Only.trans {n : Nat} {os ps : List Arr} {m m' m'' : Mem ℝ} (h : Only n os m m') (h' : Only n ps m' m'') :
    Only n (os ++ ps) m m'' := fun x hx =>
  (h' x fun o ho => hx o (by simp [ho])).trans (h x fun o ho => hx o (by simp [ho]))

/-! ## Polynomials -/

theorem poly4 {P : ℝ[X]} (h : P.degree < 4) :
    P = C (P.coeff 0) + C (P.coeff 1) * X + C (P.coeff 2) * X ^ 2 + C (P.coeff 3) * X ^ 3 := by
  have hn : P.natDegree < 4 := by
    by_cases h0 : P = 0
    · simp [h0]
    · exact (natDegree_lt_iff_degree_lt h0).2 h
  conv_lhs => rw [P.as_sum_range' 4 hn]
  simp [Finset.sum_range_succ, ← C_mul_X_pow_eq_monomial]

theorem poly6 {P : ℝ[X]} (h : P.degree < 6) :
    P = C (P.coeff 0) + C (P.coeff 1) * X + C (P.coeff 2) * X ^ 2 + C (P.coeff 3) * X ^ 3 + C (P.coeff 4) * X ^ 4
      + C (P.coeff 5) * X ^ 5 := by
  have hn : P.natDegree < 6 := by
    by_cases h0 : P = 0
    · simp [h0]
    · exact (natDegree_lt_iff_degree_lt h0).2 h
  conv_lhs => rw [P.as_sum_range' 6 hn]
  simp [Finset.sum_range_succ, ← C_mul_X_pow_eq_monomial]

/-- the cubic with these coefficients. -/
noncomputable def cub (a b c d : ℝ) : ℝ[X] := C a + C b * X + C c * X ^ 2 + C d * X ^ 3

noncomputable def qui (a b c d e f : ℝ) : ℝ[X] :=
  C a + C b * X + C c * X ^ 2 + C d * X ^ 3 + C e * X ^ 4 + C f * X ^ 5

theorem cub_eval (a b c d t : ℝ) : (cub a b c d).eval t = a + b * t + c * t ^ 2 + d * t ^ 3 ∧
    (cub a b c d).derivative.eval t = b + 2 * c * t + 3 * d * t ^ 2 ∧
    (cub a b c d).derivative.derivative.eval t = 2 * c + 6 * d * t := by
  refine ⟨by simp [cub], ?_, ?_⟩ <;> simp [cub] <;> ring

theorem qui_eval (a b c d e f t : ℝ) :
    (qui a b c d e f).eval t = a + b * t + c * t ^ 2 + d * t ^ 3 + e * t ^ 4 + f * t ^ 5 ∧
    (qui a b c d e f).derivative.eval t = b + 2 * c * t + 3 * d * t ^ 2 + 4 * e * t ^ 3 + 5 * f * t ^ 4 ∧
    (qui a b c d e f).derivative.derivative.eval t = 2 * c + 6 * d * t + 12 * e * t ^ 2 + 20 * f * t ^ 3 := by
  refine ⟨by simp [qui], ?_, ?_⟩ <;> simp [qui] <;> ring

theorem cub_deg (a b c d : ℝ) : (cub a b c d).degree < 4 := by
  refine lt_of_le_of_lt (b := 3) ?_ (by norm_num)
  unfold cub
  compute_degree

theorem qui_deg (a b c d e f : ℝ) : (qui a b c d e f).degree < 6 := by
  refine lt_of_le_of_lt (b := 5) ?_ (by norm_num)
  unfold qui
  compute_degree

/-- the end conditions determine the coefficients. -/
theorem ends3_iff {tf x1 v1 x2 v2 : ℝ} (h : tf ≠ 0) (P : ℝ[X]) : Ends3 tf x1 v1 x2 v2 P ↔
    P = cub x1 v1 (3 / tf ^ 2 * (x2 - x1) - 2 / tf * v1 - 1 / tf * v2)
      (-2 / tf ^ 3 * (x2 - x1) + 1 / tf ^ 2 * (v2 + v1)) := by
  constructor
  · rintro ⟨hd, h1, h2, h3, h4⟩
    have e := poly4 hd
    generalize P.coeff 0 = a, P.coeff 1 = b, P.coeff 2 = c, P.coeff 3 = d at e
    change P = cub a b c d at e
    subst e
    rw [(cub_eval _ _ _ _ _).1] at h1 h3
    rw [(cub_eval _ _ _ _ _).2.1] at h2 h4
    have ea : a = x1 := by linear_combination h1
    have eb : b = v1 := by linear_combination h2
    subst ea eb
    congr 1
    · field_simp
      linear_combination (3 : ℝ) * h3 - tf * h4
    · field_simp
      linear_combination (-2 : ℝ) * h3 + tf * h4
  · rintro rfl
    refine ⟨cub_deg _ _ _ _, ?_, ?_, ?_, ?_⟩
    · rw [(cub_eval _ _ _ _ _).1]; ring
    · rw [(cub_eval _ _ _ _ _).2.1]; ring
    · rw [(cub_eval _ _ _ _ _).1]; field_simp; ring
    · rw [(cub_eval _ _ _ _ _).2.1]; field_simp; ring

theorem ends5_iff {tf x1 v1 a1 x2 v2 a2 : ℝ} (h : tf ≠ 0) (P : ℝ[X]) : Ends5 tf x1 v1 a1 x2 v2 a2 P ↔
    P = qui x1 v1 (1 / 2 * a1)
      ((20 * x2 - 20 * x1 - (8 * v2 + 12 * v1) * tf - (3 * a1 - a2) * tf ^ 2) / (2 * tf ^ 3))
      ((30 * x1 - 30 * x2 + (14 * v2 + 16 * v1) * tf + (3 * a1 - 2 * a2) * tf ^ 2) / (2 * tf ^ 4))
      ((12 * x2 - 12 * x1 - (6 * v2 + 6 * v1) * tf - (a1 - a2) * tf ^ 2) / (2 * tf ^ 5)) := by
  constructor
  · rintro ⟨hd, h1, h2, h3, h4, h5, h6⟩
    have e := poly6 hd
    generalize P.coeff 0 = a, P.coeff 1 = b, P.coeff 2 = c, P.coeff 3 = d, P.coeff 4 = e', P.coeff 5 = f at e
    change P = qui a b c d e' f at e
    subst e
    rw [(qui_eval _ _ _ _ _ _ _).1] at h1 h4
    rw [(qui_eval _ _ _ _ _ _ _).2.1] at h2 h5
    rw [(qui_eval _ _ _ _ _ _ _).2.2] at h3 h6
    have ea : a = x1 := by linear_combination h1
    have eb : b = v1 := by linear_combination h2
    have ec : c = 1 / 2 * a1 := by linear_combination (1 / 2 : ℝ) * h3
    subst ea eb ec
    congr 1
    · field_simp
      linear_combination (20 : ℝ) * h4 - (8 * tf) * h5 + tf ^ 2 * h6
    · field_simp
      linear_combination (-30 : ℝ) * h4 + (14 * tf) * h5 - 2 * tf ^ 2 * h6
    · field_simp
      linear_combination (12 : ℝ) * h4 - (6 * tf) * h5 + tf ^ 2 * h6
  · rintro rfl
    refine ⟨qui_deg _ _ _ _ _ _, ?_, ?_, ?_, ?_, ?_, ?_⟩
    · rw [(qui_eval _ _ _ _ _ _ _).1]; ring
    · rw [(qui_eval _ _ _ _ _ _ _).2.1]; ring
    · rw [(qui_eval _ _ _ _ _ _ _).2.2]; ring
    · rw [(qui_eval _ _ _ _ _ _ _).1]; field_simp; ring
    · rw [(qui_eval _ _ _ _ _ _ _).2.1]; field_simp; ring
    · rw [(qui_eval _ _ _ _ _ _ _).2.2]; field_simp; ring

/-! ## Least acceleration and least jerk -/

/-- a curve with its derivatives. -/
structure Curve2 (f f1 f2 : ℝ → ℝ) : Prop where
  d1 : ∀ t, HasDerivAt f (f1 t) t
  d2 : ∀ t, HasDerivAt f1 (f2 t) t
  cont : Continuous f2

structure Curve3 (f f1 f2 f3 : ℝ → ℝ) : Prop where
  d1 : ∀ t, HasDerivAt f (f1 t) t
  d2 : ∀ t, HasDerivAt f1 (f2 t) t
  d3 : ∀ t, HasDerivAt f2 (f3 t) t
  cont : Continuous f3

open MeasureTheory intervalIntegral in
/-- integration by parts against a polynomial, for a function that vanishes at both ends. -/
theorem parts (Q : ℝ[X]) {g g1 : ℝ → ℝ} {T : ℝ} (h : ∀ t, HasDerivAt g (g1 t) t) (hc : Continuous g1)
    (h0 : g 0 = 0) (hT : g T = 0) :
    ∫ t in (0)..T, Q.eval t * g1 t = - ∫ t in (0)..T, Q.derivative.eval t * g t := by
  rw [integral_mul_deriv_eq_deriv_mul (u := fun t => Q.eval t) (u' := fun t => Q.derivative.eval t)
    (fun t _ => Q.hasDerivAt t) (fun t _ => h t) (Q.derivative.continuous.intervalIntegrable _ _)
    (hc.intervalIntegrable _ _), h0, hT]
  ring

open MeasureTheory intervalIntegral in
theorem least_aux {p g : ℝ → ℝ} {T : ℝ} (hT : 0 ≤ T) (hp : Continuous p) (hg : Continuous g)
    (h : ∫ t in (0)..T, p t * g t = 0) :
    ∫ t in (0)..T, p t ^ 2 ≤ ∫ t in (0)..T, (p t + g t) ^ 2 := by
  have e : ∫ t in (0)..T, (p t + g t) ^ 2 =
      (∫ t in (0)..T, p t ^ 2) + 2 * (∫ t in (0)..T, p t * g t) + ∫ t in (0)..T, g t ^ 2 := by
    rw [← intervalIntegral.integral_const_mul, ← intervalIntegral.integral_add, ← intervalIntegral.integral_add]
    · congr 1; ext t; ring
    all_goals exact Continuous.intervalIntegrable (by fun_prop) _ _
  have : 0 ≤ ∫ t in (0)..T, g t ^ 2 := intervalIntegral.integral_nonneg hT fun t _ => sq_nonneg _
  rw [e, h]
  linarith

/-- **C151, the cubic has the least acceleration** of all curves with the same ends. -/
theorem C151_cubic_least {T x1 v1 x2 v2 : ℝ} (hT : 0 < T) {P : ℝ[X]} (hP : Ends3 T x1 v1 x2 v2 P)
    {f f1 f2 : ℝ → ℝ} (hf : Curve2 f f1 f2) (h1 : f 0 = x1) (h2 : f1 0 = v1) (h3 : f T = x2) (h4 : f1 T = v2) :
    ∫ t in (0)..T, P.derivative.derivative.eval t ^ 2 ≤ ∫ t in (0)..T, f2 t ^ 2 := by
  have hz : P.derivative.derivative.derivative.derivative = 0 := by
    rw [poly4 hP.deg]; simp
  have key : ∫ t in (0)..T, P.derivative.derivative.eval t * (f2 t - P.derivative.derivative.eval t) = 0 := by
    have c1 : Continuous fun t => f1 t - P.derivative.eval t :=
      (continuous_iff_continuousAt.2 fun t => (hf.d2 t).continuousAt).sub P.derivative.continuous
    rw [parts (g := fun t => f1 t - P.derivative.eval t) _ (fun t => (hf.d2 t).sub (P.derivative.hasDerivAt t))
        (hf.cont.sub P.derivative.derivative.continuous) (by rw [h2, hP.v1, sub_self]) (by rw [h4, hP.v2, sub_self]),
      parts (g := fun t => f t - P.eval t) _ (fun t => (hf.d1 t).sub (P.hasDerivAt t)) c1
        (by rw [h1, hP.x1, sub_self]) (by rw [h3, hP.x2, sub_self]), hz]
    simp
  have := least_aux hT.le P.derivative.derivative.continuous (hf.cont.sub P.derivative.derivative.continuous) key
  simpa using this

/-- **C151, the quintic has the least jerk** of all curves with the same ends. -/
theorem C151_quintic_least {T x1 v1 a1 x2 v2 a2 : ℝ} (hT : 0 < T) {P : ℝ[X]} (hP : Ends5 T x1 v1 a1 x2 v2 a2 P)
    {f f1 f2 f3 : ℝ → ℝ} (hf : Curve3 f f1 f2 f3) (h1 : f 0 = x1) (h2 : f1 0 = v1) (h3 : f2 0 = a1) (h4 : f T = x2)
    (h5 : f1 T = v2) (h6 : f2 T = a2) :
    ∫ t in (0)..T, P.derivative.derivative.derivative.eval t ^ 2 ≤ ∫ t in (0)..T, f3 t ^ 2 := by
  have hz : P.derivative.derivative.derivative.derivative.derivative.derivative = 0 := by
    rw [poly6 hP.deg]; simp
  have key : ∫ t in (0)..T, P.derivative.derivative.derivative.eval t *
      (f3 t - P.derivative.derivative.derivative.eval t) = 0 := by
    have c1 : Continuous fun t => f1 t - P.derivative.eval t :=
      (continuous_iff_continuousAt.2 fun t => (hf.d2 t).continuousAt).sub P.derivative.continuous
    have c2 : Continuous fun t => f2 t - P.derivative.derivative.eval t :=
      (continuous_iff_continuousAt.2 fun t => (hf.d3 t).continuousAt).sub P.derivative.derivative.continuous
    rw [parts (g := fun t => f2 t - P.derivative.derivative.eval t) _
        (fun t => (hf.d3 t).sub (P.derivative.derivative.hasDerivAt t))
        (hf.cont.sub P.derivative.derivative.derivative.continuous) (by rw [h3, hP.a1, sub_self])
        (by rw [h6, hP.a2, sub_self]),
      parts (g := fun t => f1 t - P.derivative.eval t) _ (fun t => (hf.d2 t).sub (P.derivative.hasDerivAt t)) c2
        (by rw [h2, hP.v1, sub_self]) (by rw [h5, hP.v2, sub_self]),
      parts (g := fun t => f t - P.eval t) _ (fun t => (hf.d1 t).sub (P.hasDerivAt t)) c1
        (by rw [h1, hP.x1, sub_self]) (by rw [h4, hP.x2, sub_self]), hz]
    simp
  have := least_aux hT.le P.derivative.derivative.derivative.continuous
    (hf.cont.sub P.derivative.derivative.derivative.continuous) key
  simpa using this

/-! ## The calls -/

/-- **C151, cubic.** The parameters are computed once; whenever they, the first value and the first velocity are
still there, the call for any time gives the value, velocity and acceleration of the only polynomial of degree at
most three with the given ends. -/
theorem C151_cubic (n : Nat) (tf : ℝ) (htf : tf ≠ 0) (x1 dx1 x2 dx2 : Arr) (a2 a3 : Nat) (m : Mem ℝ)
    (hin : ∀ a ∈ [x1, dx1, x2, dx2], Apart n a (a2, 1) ∧ Apart n a (a3, 1)) (h23 : Apart n (a2, 1) (a3, 1)) :
    (∀ i < n, ∃! P, Ends3 tf (el m x1 i) (el m dx1 i) (el m x2 i) (el m dx2 i) P) ∧
    ∃ m1, param3 n tf x1 dx1 x2 dx2 a2 a3 m = some m1 ∧ Only n [(a2, 1), (a3, 1)] m m1 ∧
      ∀ (m' : Mem ℝ) (t : ℝ) (x dx ddx : Arr), 0 < x.2 → 0 < dx.2 → 0 < ddx.2 →
        (∀ a ∈ [x1, dx1, (a2, 1), (a3, 1)], (∀ i < n, el m' a i = el m1 a i) ∧
          Apart n a x ∧ Apart n a dx ∧ Apart n a ddx) →
        Apart n x dx → Apart n x ddx → Apart n dx ddx →
        Only n [x, dx, ddx] m' (val3 n t x1 dx1 a2 a3 x dx ddx m') ∧
        ∀ i < n, ∀ P, Ends3 tf (el m x1 i) (el m dx1 i) (el m x2 i) (el m dx2 i) P →
          el (val3 n t x1 dx1 a2 a3 x dx ddx m') x i = P.eval t ∧
          el (val3 n t x1 dx1 a2 a3 x dx ddx m') dx i = P.derivative.eval t ∧
          el (val3 n t x1 dx1 a2 a3 x dx ddx m') ddx i = P.derivative.derivative.eval t := by
  refine ⟨fun i _ => ⟨_, (ends3_iff htf _).2 rfl, fun Q hQ => (ends3_iff htf Q).1 hQ⟩, ?_⟩
  simp only [List.mem_cons, List.not_mem_nil, or_false, forall_eq_or_imp, forall_eq] at hin
  obtain ⟨⟨i1, i2⟩, ⟨i3, i4⟩, ⟨i5, i6⟩, ⟨i7, i8⟩⟩ := hin
  obtain ⟨w1, o1⟩ := assign_ok (n := n) (o := (a2, 1)) (f := fun i m =>
      3 / tf ^ 2 * (el m x2 i - el m x1 i) - 2 / tf * el m dx1 i - 1 / tf * el m dx2 i) [x1, dx1, x2, dx2] one_pos
    (fun i hi m m' h => by simp [h x1, h dx1, h x2, h dx2, hi]) (by simp [*]) m
  generalize hm1 : assign n (a2, 1) (fun i m =>
      3 / tf ^ 2 * (el m x2 i - el m x1 i) - 2 / tf * el m dx1 i - 1 / tf * el m dx2 i) m = m1 at w1 o1
  obtain ⟨w2, o2⟩ := assign_ok (n := n) (o := (a3, 1)) (f := fun i m =>
      -2 / tf ^ 3 * (el m x2 i - el m x1 i) + 1 / tf ^ 2 * (el m dx2 i + el m dx1 i)) [x1, dx1, x2, dx2] one_pos
    (fun i hi m m' h => by simp [h x1, h dx1, h x2, h dx2, hi]) (by simp [*]) m1
  generalize hm2 : assign n (a3, 1) (fun i m =>
      -2 / tf ^ 3 * (el m x2 i - el m x1 i) + 1 / tf ^ 2 * (el m dx2 i + el m dx1 i)) m1 = m2 at w2 o2
  refine ⟨m2, by simp only [param3, if_neg htf, hm1, hm2], o1.trans o2, ?_⟩
  intro m' t x dx ddx px pdx pddx ho xd xdd ddd
  simp only [List.mem_cons, List.not_mem_nil, or_false, forall_eq_or_imp, forall_eq] at ho
  obtain ⟨⟨e1, j1, j2, j3⟩, ⟨e2, j4, j5, j6⟩, ⟨e3, j7, j8, j9⟩, ⟨e4, j10, j11, j12⟩⟩ := ho
  obtain ⟨w3, o3⟩ := assign_ok (n := n) (o := x) (f := fun i m =>
      el m x1 i + t * el m dx1 i + t ^ 2 * el m (a2, 1) i + t ^ 3 * el m (a3, 1) i)
    [x1, dx1, (a2, 1), (a3, 1)] px
    (fun i hi m m' h => by simp [h x1, h dx1, h (a2, 1), h (a3, 1), hi]) (by simp [*]) m'
  generalize hm3 : assign n x (fun i m =>
      el m x1 i + t * el m dx1 i + t ^ 2 * el m (a2, 1) i + t ^ 3 * el m (a3, 1) i) m' = m3 at w3 o3
  obtain ⟨w4, o4⟩ := assign_ok (n := n) (o := dx) (f := fun i m =>
      el m dx1 i + 2 * t * el m (a2, 1) i + 3 * t ^ 2 * el m (a3, 1) i) [dx1, (a2, 1), (a3, 1)] pdx
    (fun i hi m m' h => by simp [h dx1, h (a2, 1), h (a3, 1), hi]) (by simp [*]) m3
  generalize hm4 : assign n dx (fun i m =>
      el m dx1 i + 2 * t * el m (a2, 1) i + 3 * t ^ 2 * el m (a3, 1) i) m3 = m4 at w4 o4
  obtain ⟨w5, o5⟩ := assign_ok (n := n) (o := ddx) (f := fun i m =>
      2 * el m (a2, 1) i + 6 * t * el m (a3, 1) i) [(a2, 1), (a3, 1)] pddx
    (fun i hi m m' h => by simp [h (a2, 1), h (a3, 1), hi]) (by simp [*]) m4
  generalize hm5 : assign n ddx (fun i m => 2 * el m (a2, 1) i + 6 * t * el m (a3, 1) i) m4 = m5 at w5 o5
  have hv : val3 n t x1 dx1 a2 a3 x dx ddx m' = m5 := by simp only [val3, hm3, hm4, hm5]
  rw [hv]
  refine ⟨(o3.trans o4).trans o5, fun i hi P hP => ?_⟩
  rw [ends3_iff htf] at hP
  subst hP
  obtain ⟨q1, q2, q3⟩ := cub_eval (el m x1 i) (el m dx1 i)
    (3 / tf ^ 2 * (el m x2 i - el m x1 i) - 2 / tf * el m dx1 i - 1 / tf * el m dx2 i)
    (-2 / tf ^ 3 * (el m x2 i - el m x1 i) + 1 / tf ^ 2 * (el m dx2 i + el m dx1 i)) t
  rw [q1, q2, q3]
  -- what the arrays hold
  have k : ∀ a, Apart n a (a2, 1) → Apart n a (a3, 1) → el m2 a i = el m a i := fun a h1 h2 =>
    only_el (o1.trans o2) (by simp [h1, h2]) hi
  have k1 : ∀ a, Apart n a (a2, 1) → el m1 a i = el m a i := fun a h1 => only_el o1 (by simp [h1]) hi
  have v2 : el m2 (a2, 1) i = _ := (only_el o2 (by simp [h23]) hi).trans (w1 i hi)
  have v3 := w2 i hi
  simp only [k1 x1 i1, k1 dx1 i3, k1 x2 i5, k1 dx2 i7] at v3
  have l3 : ∀ a, Apart n a x → el m3 a i = el m' a i := fun a h => only_el o3 (by simp [h]) hi
  have l4 : ∀ a, Apart n a x → Apart n a dx → el m4 a i = el m' a i := fun a h h' =>
    only_el (o3.trans o4) (by simp [h, h']) hi
  refine ⟨?_, ?_, ?_⟩
  · rw [only_el (o4.trans o5) (by simp [xd, xdd]) hi, w3 i hi, e1 i hi, e2 i hi, e3 i hi, e4 i hi, v2, v3,
      k x1 i1 i2, k dx1 i3 i4]
    ring
  · rw [only_el o5 (by simp [ddd]) hi, w4 i hi, l3 _ j4, l3 _ j7, l3 _ j10, e2 i hi, e3 i hi, e4 i hi, v2, v3,
      k dx1 i3 i4]
    ring
  · rw [w5 i hi, l4 _ j7 j8, l4 _ j10 j11, e3 i hi, e4 i hi, v2, v3]
    ring

/-- **C151, quintic.** -/
theorem C151_quintic (n : Nat) (tf : ℝ) (htf : tf ≠ 0) (x1 dx1 ddx1 x2 dx2 ddx2 : Arr) (a3 a4 a5 : Nat) (m : Mem ℝ)
    (hin : ∀ a ∈ [x1, dx1, ddx1, x2, dx2, ddx2],
      Apart n a (a3, 1) ∧ Apart n a (a4, 1) ∧ Apart n a (a5, 1))
    (h34 : Apart n (a3, 1) (a4, 1)) (h35 : Apart n (a3, 1) (a5, 1)) (h45 : Apart n (a4, 1) (a5, 1)) :
    (∀ i < n, ∃! P, Ends5 tf (el m x1 i) (el m dx1 i) (el m ddx1 i) (el m x2 i) (el m dx2 i) (el m ddx2 i) P) ∧
    ∃ m1, param5 n tf x1 dx1 ddx1 x2 dx2 ddx2 a3 a4 a5 m = some m1 ∧
      Only n [(a3, 1), (a4, 1), (a5, 1)] m m1 ∧
      ∀ (m' : Mem ℝ) (t : ℝ) (x dx ddx : Arr), 0 < x.2 → 0 < dx.2 → 0 < ddx.2 →
        (∀ a ∈ [x1, dx1, ddx1, (a3, 1), (a4, 1), (a5, 1)], (∀ i < n, el m' a i = el m1 a i) ∧
          Apart n a x ∧ Apart n a dx ∧ Apart n a ddx) →
        Apart n x dx → Apart n x ddx → Apart n dx ddx →
        Only n [x, dx, ddx] m' (val5 n t x1 dx1 ddx1 a3 a4 a5 x dx ddx m') ∧
        ∀ i < n, ∀ P, Ends5 tf (el m x1 i) (el m dx1 i) (el m ddx1 i) (el m x2 i) (el m dx2 i) (el m ddx2 i) P →
          el (val5 n t x1 dx1 ddx1 a3 a4 a5 x dx ddx m') x i = P.eval t ∧
          el (val5 n t x1 dx1 ddx1 a3 a4 a5 x dx ddx m') dx i = P.derivative.eval t ∧
          el (val5 n t x1 dx1 ddx1 a3 a4 a5 x dx ddx m') ddx i = P.derivative.derivative.eval t := by
  refine ⟨fun i _ => ⟨_, (ends5_iff htf _).2 rfl, fun Q hQ => (ends5_iff htf Q).1 hQ⟩, ?_⟩
  simp only [List.mem_cons, List.not_mem_nil, or_false, forall_eq_or_imp, forall_eq] at hin
  obtain ⟨⟨i1, i2, i3⟩, ⟨i4, i5, i6⟩, ⟨i7, i8, i9⟩, ⟨i10, i11, i12⟩, ⟨i13, i14, i15⟩, ⟨i16, i17, i18⟩⟩ := hin
  obtain ⟨w1, o1⟩ := assign_ok (n := n) (o := (a3, 1)) (f := fun i m =>
      (20 * el m x2 i - 20 * el m x1 i - (8 * el m dx2 i + 12 * el m dx1 i) * tf
        - (3 * el m ddx1 i - el m ddx2 i) * tf ^ 2) / (2 * tf ^ 3))
    [x1, dx1, ddx1, x2, dx2, ddx2] one_pos
    (fun i hi m m' h => by simp [h x1, h dx1, h ddx1, h x2, h dx2, h ddx2, hi]) (by simp [*]) m
  generalize hm1 : assign n (a3, 1) (fun i m =>
      (20 * el m x2 i - 20 * el m x1 i - (8 * el m dx2 i + 12 * el m dx1 i) * tf
        - (3 * el m ddx1 i - el m ddx2 i) * tf ^ 2) / (2 * tf ^ 3)) m = m1 at w1 o1
  obtain ⟨w2, o2⟩ := assign_ok (n := n) (o := (a4, 1)) (f := fun i m =>
      (30 * el m x1 i - 30 * el m x2 i + (14 * el m dx2 i + 16 * el m dx1 i) * tf
        + (3 * el m ddx1 i - 2 * el m ddx2 i) * tf ^ 2) / (2 * tf ^ 4))
    [x1, dx1, ddx1, x2, dx2, ddx2] one_pos
    (fun i hi m m' h => by simp [h x1, h dx1, h ddx1, h x2, h dx2, h ddx2, hi]) (by simp [*]) m1
  generalize hm2 : assign n (a4, 1) (fun i m =>
      (30 * el m x1 i - 30 * el m x2 i + (14 * el m dx2 i + 16 * el m dx1 i) * tf
        + (3 * el m ddx1 i - 2 * el m ddx2 i) * tf ^ 2) / (2 * tf ^ 4)) m1 = m2 at w2 o2
  obtain ⟨w3, o3⟩ := assign_ok (n := n) (o := (a5, 1)) (f := fun i m =>
      (12 * el m x2 i - 12 * el m x1 i - (6 * el m dx2 i + 6 * el m dx1 i) * tf
        - (el m ddx1 i - el m ddx2 i) * tf ^ 2) / (2 * tf ^ 5))
    [x1, dx1, ddx1, x2, dx2, ddx2] one_pos
    (fun i hi m m' h => by simp [h x1, h dx1, h ddx1, h x2, h dx2, h ddx2, hi]) (by simp [*]) m2
  generalize hm3 : assign n (a5, 1) (fun i m =>
      (12 * el m x2 i - 12 * el m x1 i - (6 * el m dx2 i + 6 * el m dx1 i) * tf
        - (el m ddx1 i - el m ddx2 i) * tf ^ 2) / (2 * tf ^ 5)) m2 = m3 at w3 o3
  refine ⟨m3, by simp only [param5, if_neg htf, hm1, hm2, hm3], (o1.trans o2).trans o3, ?_⟩
  intro m' t x dx ddx px pdx pddx ho xd xdd ddd
  simp only [List.mem_cons, List.not_mem_nil, or_false, forall_eq_or_imp, forall_eq] at ho
  obtain ⟨⟨e1, j1, j2, j3⟩, ⟨e2, j4, j5, j6⟩, ⟨e3, j7, j8, j9⟩, ⟨e4, j10, j11, j12⟩, ⟨e5, j13, j14, j15⟩,
    ⟨e6, j16, j17, j18⟩⟩ := ho
  obtain ⟨w4, o4⟩ := assign_ok (n := n) (o := x) (f := fun i m =>
      el m x1 i + t * el m dx1 i + (1 / 2) * t ^ 2 * el m ddx1 i + t ^ 3 * el m (a3, 1) i + t ^ 4 * el m (a4, 1) i
      + t ^ 5 * el m (a5, 1) i)
    [x1, dx1, ddx1, (a3, 1), (a4, 1), (a5, 1)] px
    (fun i hi m m' h => by simp [h x1, h dx1, h ddx1, h (a3, 1), h (a4, 1), h (a5, 1), hi]) (by simp [*]) m'
  generalize hm4 : assign n x (fun i m =>
      el m x1 i + t * el m dx1 i + (1 / 2) * t ^ 2 * el m ddx1 i + t ^ 3 * el m (a3, 1) i + t ^ 4 * el m (a4, 1) i
      + t ^ 5 * el m (a5, 1) i) m' = m4 at w4 o4
  obtain ⟨w5, o5⟩ := assign_ok (n := n) (o := dx) (f := fun i m =>
      el m dx1 i + t * el m ddx1 i + 3 * t ^ 2 * el m (a3, 1) i + 4 * t ^ 3 * el m (a4, 1) i
      + 5 * t ^ 4 * el m (a5, 1) i)
    [dx1, ddx1, (a3, 1), (a4, 1), (a5, 1)] pdx
    (fun i hi m m' h => by simp [h dx1, h ddx1, h (a3, 1), h (a4, 1), h (a5, 1), hi]) (by simp [*]) m4
  generalize hm5 : assign n dx (fun i m =>
      el m dx1 i + t * el m ddx1 i + 3 * t ^ 2 * el m (a3, 1) i + 4 * t ^ 3 * el m (a4, 1) i
      + 5 * t ^ 4 * el m (a5, 1) i) m4 = m5 at w5 o5
  obtain ⟨w6, o6⟩ := assign_ok (n := n) (o := ddx) (f := fun i m =>
      el m ddx1 i + 6 * t * el m (a3, 1) i + 12 * t ^ 2 * el m (a4, 1) i + 20 * t ^ 3 * el m (a5, 1) i)
    [ddx1, (a3, 1), (a4, 1), (a5, 1)] pddx
    (fun i hi m m' h => by simp [h ddx1, h (a3, 1), h (a4, 1), h (a5, 1), hi]) (by simp [*]) m5
  generalize hm6 : assign n ddx (fun i m =>
      el m ddx1 i + 6 * t * el m (a3, 1) i + 12 * t ^ 2 * el m (a4, 1) i + 20 * t ^ 3 * el m (a5, 1) i) m5 = m6 at w6 o6
  have hv : val5 n t x1 dx1 ddx1 a3 a4 a5 x dx ddx m' = m6 := by simp only [val5, hm4, hm5, hm6]
  rw [hv]
  refine ⟨(o4.trans o5).trans o6, fun i hi P hP => ?_⟩
  rw [ends5_iff htf] at hP
  subst hP
  obtain ⟨q1, q2, q3⟩ := qui_eval (el m x1 i) (el m dx1 i) (1 / 2 * el m ddx1 i)
    ((20 * el m x2 i - 20 * el m x1 i - (8 * el m dx2 i + 12 * el m dx1 i) * tf
        - (3 * el m ddx1 i - el m ddx2 i) * tf ^ 2) / (2 * tf ^ 3))
    ((30 * el m x1 i - 30 * el m x2 i + (14 * el m dx2 i + 16 * el m dx1 i) * tf
        + (3 * el m ddx1 i - 2 * el m ddx2 i) * tf ^ 2) / (2 * tf ^ 4))
    ((12 * el m x2 i - 12 * el m x1 i - (6 * el m dx2 i + 6 * el m dx1 i) * tf
        - (el m ddx1 i - el m ddx2 i) * tf ^ 2) / (2 * tf ^ 5)) t
  rw [q1, q2, q3]
  have k : ∀ a, Apart n a (a3, 1) → Apart n a (a4, 1) → Apart n a (a5, 1) → el m3 a i = el m a i := fun a h1 h2 h3 =>
    only_el ((o1.trans o2).trans o3) (by simp [h1, h2, h3]) hi
  have k1 : ∀ a, Apart n a (a3, 1) → el m1 a i = el m a i := fun a h1 => only_el o1 (by simp [h1]) hi
  have k2 : ∀ a, Apart n a (a3, 1) → Apart n a (a4, 1) → el m2 a i = el m a i := fun a h1 h2 =>
    only_el (o1.trans o2) (by simp [h1, h2]) hi
  have v3 : el m3 (a3, 1) i = _ := (only_el (o2.trans o3) (by simp [h34, h35]) hi).trans (w1 i hi)
  have v4 : el m3 (a4, 1) i = _ := (only_el o3 (by simp [h45]) hi).trans (w2 i hi)
  have v5 := w3 i hi
  simp only [k1 x1 i1, k1 dx1 i4, k1 ddx1 i7, k1 x2 i10, k1 dx2 i13, k1 ddx2 i16] at v4
  simp only [k2 x1 i1 i2, k2 dx1 i4 i5, k2 ddx1 i7 i8, k2 x2 i10 i11, k2 dx2 i13 i14, k2 ddx2 i16 i17] at v5
  have l4 : ∀ a, Apart n a x → el m4 a i = el m' a i := fun a h => only_el o4 (by simp [h]) hi
  have l5 : ∀ a, Apart n a x → Apart n a dx → el m5 a i = el m' a i := fun a h h' =>
    only_el (o4.trans o5) (by simp [h, h']) hi
  refine ⟨?_, ?_, ?_⟩
  · rw [only_el (o5.trans o6) (by simp [xd, xdd]) hi, w4 i hi, e1 i hi, e2 i hi, e3 i hi, e4 i hi, e5 i hi, e6 i hi,
      v3, v4, v5, k x1 i1 i2 i3, k dx1 i4 i5 i6, k ddx1 i7 i8 i9]
    ring
  · rw [only_el o6 (by simp [ddd]) hi, w5 i hi, l4 _ j4, l4 _ j7, l4 _ j10, l4 _ j13, l4 _ j16, e2 i hi, e3 i hi,
      e4 i hi, e5 i hi, e6 i hi, v3, v4, v5, k dx1 i4 i5 i6, k ddx1 i7 i8 i9]
    ring
  · rw [w6 i hi, l5 _ j7 j8, l5 _ j10 j11, l5 _ j13 j14, l5 _ j16 j17, e3 i hi, e4 i hi, e5 i hi, e6 i hi, v3, v4, v5,
      k ddx1 i7 i8 i9]
    ring

/-! ## Examples -/

/-- from 0 at rest to 1 at rest in one second: `3 t² - 2 t³`. -/
example : Ends3 1 0 0 1 0 (cub 0 0 3 (-2)) := (ends3_iff one_ne_zero _).2 (by norm_num)

/-- the same with accelerations zero: `10 t³ - 15 t⁴ + 6 t⁵`. -/
example : Ends5 1 0 0 0 1 0 0 (qui 0 0 0 10 (-15) 6) := (ends5_iff one_ne_zero _).2 (by norm_num)

/-- arrays of a call: two components, stored alternately in the arguments. -/
example : (∀ a ∈ [((0, 2) : Arr), (1, 2), (4, 2), (5, 2)], Apart 2 a (8, 1) ∧ Apart 2 a (10, 1)) ∧
    Apart 2 (8, 1) (10, 1) := by
  simp only [Apart, List.mem_cons, List.not_mem_nil, or_false, forall_eq_or_imp, forall_eq]
  refine ⟨⟨⟨?_, ?_⟩, ⟨?_, ?_⟩, ⟨?_, ?_⟩, ?_, ?_⟩, ?_⟩ <;> intro i hi j hj <;> omega

/-- a curve with the ends of the cubic above that is not the cubic. -/
example : Curve2 (fun t => 10 * t ^ 3 - 15 * t ^ 4 + 6 * t ^ 5) (fun t => 30 * t ^ 2 - 60 * t ^ 3 + 30 * t ^ 4)
    (fun t => 60 * t - 180 * t ^ 2 + 120 * t ^ 3) := by
  refine ⟨fun t => ?_, fun t => ?_, by fun_prop⟩
  · exact ((((hasDerivAt_pow 3 t).const_mul 10).sub ((hasDerivAt_pow 4 t).const_mul 15)).add
      ((hasDerivAt_pow 5 t).const_mul 6)).congr_deriv (by push_cast; ring)
  · exact ((((hasDerivAt_pow 2 t).const_mul 30).sub ((hasDerivAt_pow 3 t).const_mul 60)).add
      ((hasDerivAt_pow 4 t).const_mul 30)).congr_deriv (by push_cast; ring)

end Verif.Spline
