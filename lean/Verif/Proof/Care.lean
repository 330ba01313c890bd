import Mathlib.LinearAlgebra.Matrix.Charpoly.Coeff
import Mathlib.LinearAlgebra.Matrix.Charpoly.Eigs
import Mathlib.LinearAlgebra.Matrix.ToLinearEquiv
import Mathlib.LinearAlgebra.Eigenspace.Triangularizable
import Mathlib.FieldTheory.IsAlgClosed.Basic
import Mathlib.Analysis.Complex.Polynomial.Basic
import Mathlib.Analysis.Matrix.Order
import Mathlib.Analysis.Matrix.Normed
import Mathlib.Analysis.Normed.Algebra.GelfandFormula
import Mathlib.Analysis.SpecificLimits.Basic

/-!
# Linear algebra for the algebraic Riccati equation (C116)
-/

namespace Verif.Care

open Matrix Polynomial

variable {n : Type} [Fintype n] [DecidableEq n]

/-- the complex matrix with the same entries. -/
noncomputable def cx {a b : Type} (M : Matrix a b ℝ) : Matrix a b ℂ := M.map Complex.ofRealHom

theorem cx_mul {a b c : Type} [Fintype b] (M : Matrix a b ℝ) (N : Matrix b c ℝ) : cx (M * N) = cx M * cx N := by
  simp [cx, Matrix.map_mul]

theorem cx_add {a b : Type} (M N : Matrix a b ℝ) : cx (M + N) = cx M + cx N := by
  ext i j; simp [cx]

theorem cx_sub {a b : Type} (M N : Matrix a b ℝ) : cx (M - N) = cx M - cx N := by
  ext i j; simp [cx]

theorem cx_neg {a b : Type} (M : Matrix a b ℝ) : cx (-M) = -cx M := by
  ext i j; simp [cx]

theorem cx_transpose {a b : Type} (M : Matrix a b ℝ) : cx Mᵀ = (cx M)ᵀ := rfl

theorem cx_conjTranspose {a b : Type} (M : Matrix a b ℝ) : (cx M)ᴴ = cx Mᵀ := by
  ext i j; simp [cx]

omit [Fintype n] in
theorem cx_one : cx (1 : Matrix n n ℝ) = 1 := by
  simp [cx]

/-- a root of the characteristic polynomial is an eigenvalue. -/
theorem root_iff (M : Matrix n n ℝ) (z : ℂ) :
    aeval z M.charpoly = 0 ↔ ∃ v : n → ℂ, v ≠ 0 ∧ cx M *ᵥ v = z • v := by
  have h1 : aeval z M.charpoly = (cx M).charpoly.eval z := by
    rw [cx, Matrix.charpoly_map, Polynomial.eval_map, Polynomial.aeval_def]; rfl
  rw [h1, Matrix.eval_charpoly, ← Matrix.exists_mulVec_eq_zero_iff]
  refine exists_congr fun v => and_congr_right fun _ => ?_
  rw [Matrix.sub_mulVec, sub_eq_zero, Matrix.scalar_apply, eq_comm]
  have : (diagonal fun _ => z) *ᵥ v = z • v := by
    ext i; simp [Matrix.mulVec_diagonal]
  rw [this]

/-- if `P W = W R` and the characteristic polynomials of `P` and `R` have no common root then `W = 0`. -/
theorem sylvester (P R W : Matrix n n ℝ)
    (hc : ∀ z : ℂ, aeval z P.charpoly ≠ 0 ∨ aeval z R.charpoly ≠ 0) (h : P * W = W * R) : W = 0 := by
  have co := (Polynomial.isCoprime_iff_aeval_ne_zero_of_isAlgClosed (k := ℝ) ℂ P.charpoly R.charpoly).2 hc
  have comm : ∀ f : ℝ[X], aeval P f * W = W * aeval R f := by
    intro f
    induction f using Polynomial.induction_on' with
    | add p q hp hq => rw [map_add, map_add, add_mul, mul_add, hp, hq]
    | monomial k a =>
      have hk : P ^ k * W = W * R ^ k := by
        induction k with
        | zero => simp
        | succ k ih => rw [pow_succ, Matrix.mul_assoc, h, ← Matrix.mul_assoc, ih, Matrix.mul_assoc, pow_succ]
      simp only [Polynomial.aeval_monomial, Algebra.algebraMap_eq_smul_one, smul_mul_assoc, one_mul,
        mul_smul_comm, hk]
  obtain ⟨u, v, huv⟩ := co
  have h1 : aeval P (v * R.charpoly) = 1 := by
    have := congrArg (aeval P) huv
    rw [map_add, map_mul, Matrix.aeval_self_charpoly, mul_zero, zero_add, map_one] at this
    exact this
  have h2 := comm (v * R.charpoly)
  rw [h1, map_mul, Matrix.aeval_self_charpoly, mul_zero, mul_zero, one_mul] at h2
  exact h2

/-- all eigenvalues of `T` have negative real part. -/
def Stable (T : Matrix n n ℝ) : Prop := ∀ z : ℂ, aeval z T.charpoly = 0 → z.re < 0

theorem Stable.transpose {T : Matrix n n ℝ} (h : Stable T) : Stable Tᵀ := by
  intro z hz; rw [Matrix.charpoly_transpose] at hz; exact h z hz

theorem neg_root {T : Matrix n n ℝ} {z : ℂ} (h : aeval z (-T).charpoly = 0) : aeval (-z) T.charpoly = 0 := by
  rw [root_iff] at h ⊢
  obtain ⟨v, hv, e⟩ := h
  refine ⟨v, hv, ?_⟩
  rw [cx_neg, Matrix.neg_mulVec] at e
  rw [neg_smul, ← e, neg_neg]

/-- the Lyapunov equation of two stable matrices has only the zero solution. -/
theorem lyapunov {S T W : Matrix n n ℝ} (hS : Stable S) (hT : Stable T) (h : S * W + W * T = 0) : W = 0 := by
  refine sylvester S (-T) W (fun z => ?_) ?_
  · by_contra hc
    push Not at hc
    have h1 := hS z hc.1
    have h2 := hT (-z) (neg_root hc.2)
    rw [Complex.neg_re] at h2
    linarith
  · rw [mul_neg, eq_neg_iff_add_eq_zero, h]

open scoped MatrixOrder ComplexOrder in
theorem psd_cx {G : Matrix n n ℝ} (h : G.PosSemidef) : (cx G).PosSemidef := by
  obtain ⟨B, rfl⟩ := CStarAlgebra.nonneg_iff_eq_star_mul_self.mp h.nonneg
  rw [cx_mul, Matrix.star_eq_conjTranspose, Matrix.conjTranspose_eq_transpose_of_trivial, ← cx_conjTranspose]
  exact Matrix.posSemidef_conjTranspose_mul_self _

open scoped ComplexOrder in
theorem psd_form {G : Matrix n n ℝ} (h : G.PosSemidef) (y : n → ℂ) :
    0 ≤ (star y ⬝ᵥ cx G *ᵥ y).re ∧ ((star y ⬝ᵥ cx G *ᵥ y).re = 0 → cx G *ᵥ y = 0) := by
  have h0 := (psd_cx h).dotProduct_mulVec_nonneg y
  rw [Complex.nonneg_iff] at h0
  refine ⟨h0.1, fun e => ?_⟩
  rw [← (psd_cx h).dotProduct_mulVec_zero_iff]
  exact Complex.ext e h0.2.symm

/-- no eigenvalue of `A` in the closed right half plane escapes `G` (the test of Popov, Belevitch and
Hautus on left eigenvectors). -/
def Stabilizable (A G : Matrix n n ℝ) : Prop :=
  ∀ (z : ℂ) (y : n → ℂ), 0 ≤ z.re → cx Aᵀ *ᵥ y = z • y → cx G *ᵥ y = 0 → y = 0

/-- the same on right eigenvectors. -/
def Detectable (A Q : Matrix n n ℝ) : Prop :=
  ∀ (z : ℂ) (x : n → ℂ), 0 ≤ z.re → cx A *ᵥ x = z • x → cx Q *ᵥ x = 0 → x = 0

/-- the Hamiltonian matrix. -/
def ham (A G Q : Matrix n n ℝ) : Matrix (n ⊕ n) (n ⊕ n) ℝ := fromBlocks A (-G) (-Q) (-Aᵀ)

omit [Fintype n] [DecidableEq n] in
theorem cx_fromBlocks (A B C D : Matrix n n ℝ) : cx (fromBlocks A B C D) = fromBlocks (cx A) (cx B) (cx C) (cx D) := by
  simp [cx, Matrix.fromBlocks_map]

omit [DecidableEq n] in
theorem ham_eigen {A G Q : Matrix n n ℝ} {z : ℂ} {v : n ⊕ n → ℂ} (h : cx (ham A G Q) *ᵥ v = z • v) :
    cx A *ᵥ (v ∘ Sum.inl) - cx G *ᵥ (v ∘ Sum.inr) = z • (v ∘ Sum.inl) ∧
    -(cx Q *ᵥ (v ∘ Sum.inl)) - cx Aᵀ *ᵥ (v ∘ Sum.inr) = z • (v ∘ Sum.inr) := by
  rw [ham, cx_fromBlocks, Matrix.fromBlocks_mulVec] at h
  constructor
  · funext i
    have := congrFun h (Sum.inl i)
    simp only [Sum.elim_inl, cx_neg, Matrix.neg_mulVec, Pi.add_apply, Pi.neg_apply] at this
    rw [Pi.sub_apply, sub_eq_add_neg, this]; rfl
  · funext i
    have := congrFun h (Sum.inr i)
    simp only [Sum.elim_inr, cx_neg, Matrix.neg_mulVec, Pi.add_apply, Pi.neg_apply] at this
    rw [Pi.sub_apply, sub_eq_add_neg, Pi.neg_apply, this]; rfl

omit [DecidableEq n] in
theorem star_dot (x y : n → ℂ) : star (star x ⬝ᵥ y) = star y ⬝ᵥ x := by
  simp [dotProduct, mul_comm]

omit [DecidableEq n] in
/-- the adjoint of a real matrix is its transpose. -/
theorem adj (M : Matrix n n ℝ) (x y : n → ℂ) :
    star (star x ⬝ᵥ cx M *ᵥ y) = star y ⬝ᵥ cx Mᵀ *ᵥ x := by
  rw [star_dot, Matrix.star_mulVec, cx_conjTranspose, Matrix.dotProduct_mulVec]

/-- no eigenvalue of the Hamiltonian is imaginary. -/
theorem ham_no_imag {A G Q : Matrix n n ℝ} (hG : G.PosSemidef) (hQ : Q.PosSemidef)
    (hs : Stabilizable A G) (hd : Detectable A Q) (z : ℂ) (hz : aeval z (ham A G Q).charpoly = 0) :
    z.re ≠ 0 := by
  intro h0
  obtain ⟨v, hv, e⟩ := (root_iff _ _).1 hz
  obtain ⟨e1, e2⟩ := ham_eigen e
  generalize hx : v ∘ Sum.inl = x at e1 e2
  generalize hy : v ∘ Sum.inr = y at e1 e2
  have f1 := congrArg (fun w => star y ⬝ᵥ w) e1
  have f2 := congrArg (fun w => star (star x ⬝ᵥ w)) e2
  simp only [dotProduct_sub, dotProduct_smul, dotProduct_neg, star_sub, star_neg, star_smul] at f1 f2
  rw [adj, adj, star_dot, Matrix.transpose_transpose] at f2
  have hQt : Qᵀ = Q := by
    have := hQ.1; rwa [Matrix.IsHermitian, Matrix.conjTranspose_eq_transpose_of_trivial] at this
  rw [hQt] at f2
  have key : -(star y ⬝ᵥ cx G *ᵥ y) - (star x ⬝ᵥ cx Q *ᵥ x) = 0 := by
    have : z + star z = 0 := by
      apply Complex.ext <;> simp [h0]
    have h3 : (z + star z) * (star y ⬝ᵥ x) = 0 := by rw [this, zero_mul]
    simp only [smul_eq_mul] at f1 f2
    linear_combination f1 + f2 + h3
  have k2 := congrArg Complex.re key
  simp only [Complex.sub_re, Complex.neg_re, Complex.zero_re] at k2
  have g := psd_form hG y
  have q := psd_form hQ x
  have gy := g.2 (by linarith [g.1, q.1])
  have qx := q.2 (by linarith [g.1, q.1])
  have x0 : x = 0 := hd z x h0.ge (by rw [gy, sub_zero] at e1; exact e1) qx
  have y0 : y = 0 := hs (-z) y (by rw [Complex.neg_re, h0, neg_zero])
    (by rw [qx, neg_zero, zero_sub] at e2; rw [neg_smul, ← e2, neg_neg]) gy
  apply hv
  funext i
  rcases i with i | i
  · exact (congrFun hx i).trans (congrFun x0 i)
  · exact (congrFun hy i).trans (congrFun y0 i)

/-- the characteristic polynomial of the Hamiltonian is even. -/
theorem ham_even {A G Q : Matrix n n ℝ} (hG : Gᵀ = G) (hQ : Qᵀ = Q) :
    ((ham A G Q).charpoly.map (algebraMap ℝ ℂ)).comp (-X) = (ham A G Q).charpoly.map (algebraMap ℝ ℂ) := by
  apply Polynomial.funext
  intro z
  have hm : (ham A G Q).charpoly.map (algebraMap ℝ ℂ) = (cx (ham A G Q)).charpoly := by
    rw [cx, Matrix.charpoly_map]; rfl
  rw [hm, Polynomial.eval_comp, Polynomial.eval_neg, Polynomial.eval_X, Matrix.eval_charpoly, Matrix.eval_charpoly]
  generalize hH : ham A G Q = H
  let J : Matrix (n ⊕ n) (n ⊕ n) ℝ := fromBlocks 0 1 (-1) 0
  have hJ : J * (-J) = 1 := by
    simp only [J, ← fromBlocks_one, fromBlocks_neg, fromBlocks_multiply]
    simp
  have hc : J * H = -(Hᵀ * J) := by
    rw [← hH]
    simp only [J, ham, fromBlocks_transpose, fromBlocks_neg, fromBlocks_multiply]
    simp [hG, hQ]
  have hcC : cx J * cx H = -((cx H)ᵀ * cx J) := by
    rw [← cx_mul, hc, cx_neg, cx_mul]; rfl
  have hd : (cx J).det ≠ 0 := by
    intro h
    have := congrArg cx hJ
    rw [cx_mul, cx_one] at this
    have := congrArg Matrix.det this
    rw [Matrix.det_mul, h, zero_mul, Matrix.det_one] at this
    exact zero_ne_one this
  have e : cx J * (scalar (n ⊕ n) z + cx H) = (scalar (n ⊕ n) z - cx H)ᵀ * cx J := by
    rw [Matrix.mul_add, hcC, Matrix.transpose_sub, Matrix.sub_mul, ← sub_eq_add_neg]
    congr 1
    rw [show ((scalar (n ⊕ n)) z)ᵀ = (scalar (n ⊕ n)) z from by simp [Matrix.scalar_apply]]
    exact ((scalar_commute z (fun r => Commute.all _ _) (cx J)).eq).symm
  have e2 := congrArg Matrix.det e
  rw [Matrix.det_mul, Matrix.det_mul, Matrix.det_transpose, mul_comm] at e2
  have e3 := mul_right_cancel₀ hd e2
  rw [← e3]
  have : scalar (n ⊕ n) (-z) - cx H = -(scalar (n ⊕ n) z + cx H) := by
    rw [map_neg]; abel
  rw [this, Matrix.det_neg]
  simp [← two_mul]

/-- half of the eigenvalues of the Hamiltonian are stable. -/
theorem ham_count {A G Q : Matrix n n ℝ} (hG : Gᵀ = G) (hQ : Qᵀ = Q)
    (hi : ∀ z : ℂ, aeval z (ham A G Q).charpoly = 0 → z.re ≠ 0) :
    (((ham A G Q).charpoly.aroots ℂ).filter (fun z => z.re < 0)).card = Fintype.card n := by
  classical
  have he := ham_even (A := A) hG hQ
  generalize hp : (ham A G Q).charpoly = p at he hi ⊢
  have hm : p.Monic := hp ▸ Matrix.charpoly_monic _
  have hdeg : p.natDegree = 2 * Fintype.card n := by
    rw [← hp, Matrix.charpoly_natDegree_eq_dim, Fintype.card_sum]; ring
  have hcard : (p.aroots ℂ).card = 2 * Fintype.card n := by
    rw [Polynomial.aroots, ← hdeg, ← Polynomial.natDegree_map (algebraMap ℝ ℂ)]
    exact (IsAlgClosed.splits _).natDegree_eq_card_roots.symm
  have hneg : (p.aroots ℂ).map (fun z => -z) = p.aroots ℂ := by
    rw [Polynomial.aroots, ← Polynomial.roots_comp_neg_X, he]
  have h2 : ((p.aroots ℂ).filter (fun z => ¬ z.re < 0)).card = ((p.aroots ℂ).filter (fun z => z.re < 0)).card := by
    conv_rhs => rw [← hneg, Multiset.filter_map, Multiset.card_map]
    congr 1
    refine Multiset.filter_congr (fun z hz => ?_)
    have := hi z (Polynomial.mem_aroots.1 hz).2
    simp only [Function.comp, Complex.neg_re, Left.neg_neg_iff, not_lt]
    exact ⟨fun h => lt_of_le_of_ne h (Ne.symm this), le_of_lt⟩
  have h3 := congrArg Multiset.card (Multiset.filter_add_not (fun z : ℂ => z.re < 0) (p.aroots ℂ))
  rw [Multiset.card_add] at h3
  omega

/-- **Laub's method.** `U11`, `U21` are orthonormal columns spanning an invariant subspace of the
Hamiltonian on which it is stable. -/
theorem laub {A G Q U11 U21 T : Matrix n n ℝ} (hG : G.PosSemidef) (hQ : Qᵀ = Q)
    (hs : Stabilizable A G) (hT : Stable T) (ho : U11ᵀ * U11 + U21ᵀ * U21 = 1)
    (h1 : A * U11 - G * U21 = U11 * T) (h2 : -(Q * U11) - Aᵀ * U21 = U21 * T) :
    U11.det ≠ 0 ∧ ∀ X, U11ᵀ * X = U21ᵀ →
      Xᵀ = X ∧ Aᵀ * X + X * A - X * G * X + Q = 0 ∧ Stable (A - G * X) := by
  have hGt : Gᵀ = G := by
    have := hG.1; rwa [Matrix.IsHermitian, Matrix.conjTranspose_eq_transpose_of_trivial] at this
  have h1t := congrArg Matrix.transpose h1
  have h2t := congrArg Matrix.transpose h2
  simp only [Matrix.transpose_sub, Matrix.transpose_neg, Matrix.transpose_mul, Matrix.transpose_transpose, hGt, hQ] at h1t h2t
  have hW : U11ᵀ * U21 = U21ᵀ * U11 := by
    rw [← sub_eq_zero]
    refine lyapunov hT.transpose hT ?_
    have e : Tᵀ * (U11ᵀ * U21 - U21ᵀ * U11) + (U11ᵀ * U21 - U21ᵀ * U11) * T =
        (Tᵀ * U11ᵀ) * U21 - (Tᵀ * U21ᵀ) * U11 + U11ᵀ * (U21 * T) - U21ᵀ * (U11 * T) := by
      noncomm_ring
    rw [e, ← h1t, ← h2t, ← h1, ← h2]
    noncomm_ring
  have hdet : U11.det ≠ 0 := by
    intro hd
    have hdC : (cx U11).det = 0 := by
      have : (cx U11).det = Complex.ofRealHom U11.det := by
        rw [RingHom.map_det]; rfl
      rw [this, hd, map_zero]
    obtain ⟨x0, hx0, hk0⟩ := Matrix.exists_mulVec_eq_zero_iff.2 hdC
    have c1 : cx A * cx U11 - cx G * cx U21 = cx U11 * cx T := by
      rw [← cx_mul, ← cx_mul, ← cx_mul, ← cx_sub, h1]
    have c2 : -(cx Q * cx U11) - cx Aᵀ * cx U21 = cx U21 * cx T := by
      rw [← cx_mul, ← cx_mul, ← cx_mul, ← cx_neg, ← cx_sub, h2]
    have key : ∀ x, cx U11 *ᵥ x = 0 → cx G *ᵥ (cx U21 *ᵥ x) = 0 ∧ cx U11 *ᵥ (cx T *ᵥ x) = 0 := by
      intro x hx
      have e1 := congrArg (fun M => M *ᵥ x) c1
      simp only [Matrix.sub_mulVec, ← Matrix.mulVec_mulVec, hx, Matrix.mulVec_zero, zero_sub] at e1
      have e2 := congrArg (fun w => star (cx U21 *ᵥ x) ⬝ᵥ w) e1
      have e3 : star (cx U21 *ᵥ x) ⬝ᵥ cx U11 *ᵥ (cx T *ᵥ x) = 0 := by
        rw [Matrix.star_mulVec, cx_conjTranspose, ← Matrix.dotProduct_mulVec, Matrix.mulVec_mulVec, ← cx_mul, ← hW,
          cx_mul, ← Matrix.mulVec_mulVec, Matrix.dotProduct_mulVec, ← cx_conjTranspose, ← Matrix.star_mulVec, hx]
        simp
      rw [e3] at e2
      simp only [dotProduct_neg, neg_eq_zero] at e2
      have g := (psd_form hG (cx U21 *ᵥ x)).2 (by rw [e2]; rfl)
      refine ⟨g, ?_⟩
      rw [← e1, g, neg_zero]
    let K : Submodule ℂ (n → ℂ) := LinearMap.ker (Matrix.mulVecLin (cx U11))
    let f : K →ₗ[ℂ] K := (Matrix.mulVecLin (cx T)).restrict (fun x hx => by
      simp only [K, LinearMap.mem_ker, Matrix.mulVecLin_apply] at hx ⊢
      exact (key x hx).2)
    have : Nontrivial K := ⟨⟨⟨x0, by simpa [K] using hk0⟩, 0, fun h => hx0 (congrArg Subtype.val h)⟩⟩
    obtain ⟨z, hz⟩ := Module.End.exists_eigenvalue f
    obtain ⟨⟨x, hxK⟩, hx⟩ := hz.exists_hasEigenvector
    have hxz : cx T *ᵥ x = z • x := congrArg Subtype.val hx.apply_eq_smul
    have hx0' : x ≠ 0 := fun h => hx.2 (Subtype.ext h)
    have hxk : cx U11 *ᵥ x = 0 := by simpa [K] using hxK
    have zr := hT z ((root_iff _ _).2 ⟨x, hx0', hxz⟩)
    have e2 := congrArg (fun M => M *ᵥ x) c2
    simp only [Matrix.sub_mulVec, Matrix.neg_mulVec, ← Matrix.mulVec_mulVec, hxk, Matrix.mulVec_zero, neg_zero, zero_sub,
      hxz, Matrix.mulVec_smul] at e2
    have u0 := hs (-z) (cx U21 *ᵥ x) (by rw [Complex.neg_re]; linarith) (by rw [neg_smul, ← e2, neg_neg]) (key x hxk).1
    apply hx0'
    have o := congrArg (fun M => cx M *ᵥ x) ho
    simp only [cx_add, cx_mul, Matrix.add_mulVec, ← Matrix.mulVec_mulVec, hxk, u0, Matrix.mulVec_zero, add_zero, cx_one,
      Matrix.one_mulVec] at o
    exact o.symm
  refine ⟨hdet, fun X hX => ?_⟩
  have hu : IsUnit U11 := (Matrix.isUnit_iff_isUnit_det _).2 hdet.isUnit
  have hut : IsUnit U11ᵀ := (Matrix.isUnit_iff_isUnit_det _).2 (by rw [Matrix.det_transpose]; exact hdet.isUnit)
  have hXU : X * U11 = U21 := by
    apply hut.mul_left_cancel
    rw [← Matrix.mul_assoc, hX, hW]
  have hsym : Xᵀ = X := by
    apply hu.mul_right_cancel
    rw [hXU]
    have := congrArg Matrix.transpose hX
    rwa [Matrix.transpose_mul, Matrix.transpose_transpose, Matrix.transpose_transpose] at this
  refine ⟨hsym, ?_, ?_⟩
  · apply hu.mul_right_cancel
    rw [zero_mul]
    calc (Aᵀ * X + X * A - X * G * X + Q) * U11
        = Aᵀ * (X * U11) + X * (A * U11 - G * (X * U11)) + Q * U11 := by noncomm_ring
      _ = Aᵀ * U21 + (X * U11) * T + Q * U11 := by rw [hXU, h1, ← Matrix.mul_assoc, hXU]
      _ = 0 := by rw [hXU, ← h2]; noncomm_ring
  · have e : (A - G * X) * U11 = U11 * T := by
      rw [sub_mul, Matrix.mul_assoc, hXU, h1]
    have e2 : A - G * X = (hu.unit : Matrix n n ℝ) * T * (hu.unit⁻¹ : (Matrix n n ℝ)ˣ) := by
      rw [IsUnit.unit_spec, ← e, Matrix.mul_assoc, IsUnit.mul_val_inv, Matrix.mul_one]
    intro z hz
    rw [e2, Matrix.coe_units_inv, Matrix.charpoly_units_conj] at hz
    exact hT z hz

/-- there is at most one symmetric stabilizing solution. -/
theorem care_unique {A G Q X Y : Matrix n n ℝ} (hG : Gᵀ = G) (hX : Xᵀ = X)
    (eX : Aᵀ * X + X * A - X * G * X + Q = 0) (eY : Aᵀ * Y + Y * A - Y * G * Y + Q = 0)
    (sX : Stable (A - G * X)) (sY : Stable (A - G * Y)) : X = Y := by
  rw [← sub_eq_zero]
  refine lyapunov sX.transpose sY ?_
  rw [Matrix.transpose_sub, Matrix.transpose_mul, hG, hX]
  calc (Aᵀ - X * G) * (X - Y) + (X - Y) * (A - G * Y)
      = (Aᵀ * X + X * A - X * G * X + Q) - (Aᵀ * Y + Y * A - Y * G * Y + Q) := by noncomm_ring
    _ = 0 := by rw [eX, eY, sub_zero]

section
open Filter Topology

attribute [local instance] Matrix.linftyOpNormedRing Matrix.linftyOpNormedAlgebra Matrix.linftyOpNormedAddCommGroup
  Matrix.linftyOpNormedSpace

/-- the powers of a matrix whose eigenvalues are inside the unit circle tend to zero. -/
theorem pow_tendsto [Nonempty n] (C : Matrix n n ℂ) (h : ∀ z ∈ spectrum ℂ C, ‖z‖ < 1) :
    Tendsto (fun k : ℕ => ‖C ^ k‖) atTop (𝓝 0) := by
  have : CompleteSpace (Matrix n n ℂ) := FiniteDimensional.complete ℂ _
  have hr : spectralRadius ℂ C < 1 := by
    obtain ⟨z, hz, e⟩ := spectrum.exists_nnnorm_eq_spectralRadius C
    rw [← e]
    exact_mod_cast h z hz
  obtain ⟨r, hr1, hr2⟩ := ENNReal.lt_iff_exists_nnreal_btwn.1 hr
  have hr3 : r < 1 := by exact_mod_cast hr2
  have ev := (spectrum.pow_nnnorm_pow_one_div_tendsto_nhds_spectralRadius C).eventually (gt_mem_nhds hr1)
  have ev2 : ∀ᶠ k : ℕ in atTop, ‖C ^ k‖ ≤ (r : ℝ) ^ k := by
    filter_upwards [ev, eventually_gt_atTop 0] with k hk k0
    have h1 : ((‖C ^ k‖₊ : ENNReal) ^ (1 / k : ℝ)) ^ (k : ℝ) ≤ (r : ENNReal) ^ (k : ℝ) :=
      ENNReal.rpow_le_rpow hk.le (by positivity)
    rw [← ENNReal.rpow_mul, one_div, inv_mul_cancel₀ (by positivity), ENNReal.rpow_one, ENNReal.rpow_natCast] at h1
    exact_mod_cast h1
  refine squeeze_zero' (Eventually.of_forall fun k => norm_nonneg _) ev2 ?_
  exact tendsto_pow_atTop_nhds_zero_of_lt_one r.2 (by exact_mod_cast hr3)

theorem pow_vec_tendsto (C : Matrix n n ℂ) (h : ∀ z ∈ spectrum ℂ C, ‖z‖ < 1) (v : n → ℂ) :
    Tendsto (fun k : ℕ => (C ^ k) *ᵥ v) atTop (𝓝 0) := by
  rcases isEmpty_or_nonempty n with he | hn
  · have : ∀ w : n → ℂ, w = 0 := fun w => funext fun i => (he.false i).elim
    simp only [this]
    exact tendsto_const_nhds
  · rw [tendsto_zero_iff_norm_tendsto_zero]
    refine squeeze_zero (fun _ => norm_nonneg _) (fun k => Matrix.linfty_opNorm_mulVec (C ^ k) v) ?_
    simpa using (pow_tendsto C h).mul_const ‖v‖

end

/-- **Lyapunov.** If `F` is stable and `F^T X + X F` is negative semidefinite then `X` is positive
semidefinite. -/
theorem lyap_psd {F X M : Matrix n n ℝ} (hF : Stable F) (hX : Xᵀ = X) (hM : M.PosSemidef)
    (h : Fᵀ * X + X * F = -M) : X.PosSemidef := by
  have hdet : (1 - F).det ≠ 0 := by
    intro hd
    obtain ⟨v, hv, e⟩ := Matrix.exists_mulVec_eq_zero_iff.2 hd
    have : (1 : ℂ).re < 0 := hF 1 ((root_iff F 1).2 ⟨fun i => (v i : ℂ), ?_, ?_⟩)
    · norm_num at this
    · intro h0; apply hv; funext i; exact Complex.ofReal_eq_zero.1 (congrFun h0 i)
    · rw [Matrix.sub_mulVec, Matrix.one_mulVec, sub_eq_zero] at e
      funext i
      have := congrFun e i
      rw [one_smul, this]
      simp [cx, Matrix.mulVec, dotProduct]
  have hu : IsUnit (1 - F).det := hdet.isUnit
  obtain ⟨N, hN⟩ : ∃ N, N = (1 - F)⁻¹ := ⟨_, rfl⟩
  have hN1 : (1 - F) * N = 1 := by rw [hN, Matrix.mul_nonsing_inv _ hu]
  have hN2 : N * (1 - F) = 1 := by rw [hN, Matrix.nonsing_inv_mul _ hu]
  have hN1t : Nᵀ * (1 - Fᵀ) = 1 := by
    have := congrArg Matrix.transpose hN1
    simpa [Matrix.transpose_mul] using this
  obtain ⟨C, hC⟩ : ∃ C, C = (1 + F) * N := ⟨_, rfl⟩
  have stein : X = Cᵀ * X * C + (2 : ℝ) • (Nᵀ * M * N) := by
    have e : Cᵀ = Nᵀ * (1 + Fᵀ) := by rw [hC]; simp [Matrix.transpose_mul]
    have e1 : (1 - Fᵀ) * X * (1 - F) = (1 + Fᵀ) * X * (1 + F) + (2 : ℝ) • M := by
      have : M = -(Fᵀ * X + X * F) := by rw [h, neg_neg]
      rw [this, two_smul]; noncomm_ring
    calc X = (Nᵀ * (1 - Fᵀ)) * X * ((1 - F) * N) := by rw [hN1, hN1t, one_mul, mul_one]
      _ = Nᵀ * ((1 - Fᵀ) * X * (1 - F)) * N := by noncomm_ring
      _ = _ := by
        rw [e1, e, hC, mul_add, add_mul, mul_smul_comm, smul_mul_assoc]
        congr 1
        noncomm_ring
  have spec : ∀ z ∈ spectrum ℂ (cx C), ‖z‖ < 1 := by
    intro z hz
    rw [Matrix.mem_spectrum_iff_isRoot_charpoly] at hz
    have hz2 : aeval z C.charpoly = 0 := by
      rw [Polynomial.IsRoot, cx, Matrix.charpoly_map, Polynomial.eval_map] at hz
      rw [Polynomial.aeval_def]; exact hz
    obtain ⟨v, hv, e⟩ := (root_iff C z).1 hz2
    obtain ⟨u, hu'⟩ : ∃ u, u = cx N *ᵥ v := ⟨_, rfl⟩
    have hv2 : v = u - cx F *ᵥ u := by
      have := congrArg cx hN1
      rw [cx_mul, cx_sub, cx_one] at this
      have := congrArg (fun A => A *ᵥ v) this
      simp only [← Matrix.mulVec_mulVec, Matrix.one_mulVec, Matrix.sub_mulVec] at this
      rw [hu', this]
    have e2 : u + cx F *ᵥ u = z • v := by
      rw [← e, hC, cx_mul, cx_add, cx_one, ← Matrix.mulVec_mulVec, ← hu', Matrix.add_mulVec, Matrix.one_mulVec]
    have u0 : u ≠ 0 := by rintro rfl; apply hv; rw [hv2]; simp
    have e3 : (1 + z) • (cx F *ᵥ u) = (z - 1) • u := by
      rw [hv2] at e2
      funext i
      have := congrFun e2 i
      simp only [Pi.add_apply, Pi.smul_apply, Pi.sub_apply, smul_eq_mul] at this ⊢
      linear_combination this
    have z1 : 1 + z ≠ 0 := by
      intro h0
      have hz1 : z - 1 = -2 := by linear_combination h0
      rw [h0, zero_smul, hz1] at e3
      apply u0
      have := e3.symm
      rw [smul_eq_zero] at this
      rcases this with h | h
      · norm_num at h
      · exact h
    have hr := hF ((1 + z)⁻¹ * (z - 1)) ((root_iff F _).2 ⟨u, u0, by
      rw [mul_smul, ← e3, smul_smul, inv_mul_cancel₀ z1, one_smul]⟩)
    have hq : 0 < Complex.normSq (1 + z) := Complex.normSq_pos.2 z1
    rw [Complex.mul_re, Complex.inv_re, Complex.inv_im] at hr
    have h3 : ((1 + z).re * (z - 1).re + (1 + z).im * (z - 1).im) / Complex.normSq (1 + z) < 0 := by
      refine lt_of_eq_of_lt ?_ hr; ring
    have h4 : (1 + z).re * (z - 1).re + (1 + z).im * (z - 1).im < 0 := by
      by_contra hh
      exact absurd h3 (not_lt.2 (div_nonneg (not_lt.1 hh) hq.le))
    simp only [Complex.add_re, Complex.sub_re, Complex.add_im, Complex.sub_im, Complex.one_re, Complex.one_im] at h4
    have h5 : Complex.normSq z < 1 := by rw [Complex.normSq_apply]; nlinarith
    rw [Complex.normSq_eq_norm_sq] at h5
    nlinarith [norm_nonneg z]
  have form : ∀ v : n → ℝ, v ⬝ᵥ ((Cᵀ * X * C) *ᵥ v) ≤ v ⬝ᵥ (X *ᵥ v) := by
    intro v
    have h1 : 0 ≤ v ⬝ᵥ ((Nᵀ * M * N) *ᵥ v) := by
      have := hM.dotProduct_mulVec_nonneg (N *ᵥ v)
      rw [star_trivial] at this
      rw [← Matrix.mulVec_mulVec, ← Matrix.mulVec_mulVec, Matrix.dotProduct_mulVec, Matrix.vecMul_transpose]
      exact this
    conv_rhs => rw [stein, Matrix.add_mulVec, dotProduct_add, Matrix.smul_mulVec, dotProduct_smul, smul_eq_mul]
    linarith
  have iter : ∀ (k : ℕ) (v : n → ℝ), ((C ^ k) *ᵥ v) ⬝ᵥ (X *ᵥ ((C ^ k) *ᵥ v)) ≤ v ⬝ᵥ (X *ᵥ v) := by
    intro k
    induction k with
    | zero => intro v; simp
    | succ k ih =>
      intro v
      have h1 := form ((C ^ k) *ᵥ v)
      have h2 := ih v
      have h3 : ((C ^ k) *ᵥ v) ⬝ᵥ ((Cᵀ * X * C) *ᵥ ((C ^ k) *ᵥ v)) =
          ((C ^ (k + 1)) *ᵥ v) ⬝ᵥ (X *ᵥ ((C ^ (k + 1)) *ᵥ v)) := by
        rw [pow_succ', ← Matrix.mulVec_mulVec, ← Matrix.mulVec_mulVec, Matrix.dotProduct_mulVec, Matrix.vecMul_transpose,
          Matrix.mulVec_mulVec _ C (C ^ k)]
      linarith
  refine Matrix.PosSemidef.of_dotProduct_mulVec_nonneg ?_ (fun v => ?_)
  · rw [Matrix.IsHermitian, Matrix.conjTranspose_eq_transpose_of_trivial, hX]
  · rw [star_trivial]
    have lim := pow_vec_tendsto (cx C) spec (fun i => (v i : ℂ))
    have lim2 : Filter.Tendsto (fun k : ℕ => (C ^ k) *ᵥ v) Filter.atTop (nhds 0) := by
      rw [tendsto_pi_nhds] at lim ⊢
      intro i
      have := (Complex.continuous_re.tendsto _).comp (lim i)
      refine this.congr (fun k => ?_)
      have hp : cx C ^ k = cx (C ^ k) := by
        induction k with
        | zero => rw [pow_zero, pow_zero, cx_one]
        | succ k ih => rw [pow_succ, ih, pow_succ, cx_mul]
      rw [Function.comp_apply, hp]
      simp [cx, Matrix.mulVec, dotProduct]
    have cont : Continuous (fun w : n → ℝ => w ⬝ᵥ (X *ᵥ w)) := by
      unfold Matrix.mulVec dotProduct; fun_prop
    have lim3 := (cont.tendsto 0).comp lim2
    simp only [zero_dotProduct] at lim3
    exact le_of_tendsto' lim3 (fun k => iter k v)

/-- the stabilizing solution is positive semidefinite. -/
theorem care_psd {A G Q X : Matrix n n ℝ} (hG : G.PosSemidef) (hQ : Q.PosSemidef) (hX : Xᵀ = X)
    (e : Aᵀ * X + X * A - X * G * X + Q = 0) (hs : Stable (A - G * X)) : X.PosSemidef := by
  have hGt : Gᵀ = G := by
    have := hG.1; rwa [Matrix.IsHermitian, Matrix.conjTranspose_eq_transpose_of_trivial] at this
  have hXX : (X * G * X).PosSemidef := by
    have := hG.conjTranspose_mul_mul_same X
    rwa [Matrix.conjTranspose_eq_transpose_of_trivial, hX] at this
  refine lyap_psd hs hX (hXX.add hQ) ?_
  rw [Matrix.transpose_sub, Matrix.transpose_mul, hGt, hX, eq_neg_iff_add_eq_zero, ← e]
  noncomm_ring

end Verif.Care
