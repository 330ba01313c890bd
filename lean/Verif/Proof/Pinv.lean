import Verif.Model.Pinv
import Verif.Prop.La
import Mathlib.Analysis.Matrix.PosDef
import Mathlib.Algebra.Order.Star.Real

namespace Verif.Pinv

open Verif.Mat Verif.La Matrix

theorem forPtr_count {σ : Type} (n x e inc : Nat) (h : 0 < inc) (he : e ≤ x + n * inc)
    (hl : ∀ k < n, x + k * inc < e) (f : Nat → σ → σ) (s : σ) :
    forPtr x e inc f s = forN n (fun k => f (x + k * inc)) s := by
  induction n generalizing x s with
  | zero => rw [forPtr, if_neg (by omega)]; simp [forN]
  | succ n ih =>
    have h0 := hl 0 (by omega)
    rw [forPtr, if_pos ⟨by simpa using h0, h⟩, forN_succ, ih (x + inc) (by rw [Nat.succ_mul] at he; omega)]
    · congr 1
      · funext k; congr 1; ring
      · simp
    · intro k hk
      have := hl (k + 1) (by omega)
      rw [Nat.succ_mul] at this
      omega

/-- a loop of stores on the upper half of `B`, whose values do not depend on it. -/
theorem tri_write (B : DMat) (hB : B.rows ≤ B.ld) (h : Nat → Nat → Mem ℝ → ℝ)
    (hl : ∀ j < B.rows, ∀ i ≤ j, ∀ m m' : Mem ℝ,
      (∀ a, (∀ i j, i ≤ j → j < B.rows → a ≠ B.ref i j) → m a = m' a) → h i j m = h i j m')
    (m : Mem ℝ) :
    let F := forN B.rows (fun j m => forN (j + 1) (fun i m => store m (B.ref i j) (h i j m)) m) m
    (∀ i j, i ≤ j → j < B.rows → F (B.ref i j) = h i j m) ∧
    ∀ a, (∀ i j, i ≤ j → j < B.rows → a ≠ B.ref i j) → F a = m a := by
  intro F
  have hF : F = _ := forN_dep B.rows (fun j => j + 1) (fun j i (m : Mem ℝ) => store m (B.ref i j) (h i j m)) m
  have := upd_fold (K := ℝ) (fun p : Nat × Nat => B.ref p.2 p.1) (fun p m => h p.2 p.1 m)
    _ (dep_nodup B.rows (fun j => j + 1))
    (fun p hp q hq e => by
      have hp := dep_mem.1 hp
      have hq := dep_mem.1 hq
      obtain ⟨e1, e2⟩ := mref_inj hB (by omega) (by omega) e
      exact Prod.ext e1 e2)
    (fun p hp m m' hm => by
      have hp := dep_mem.1 hp
      refine hl _ hp.1 _ (by omega) m m' (fun a ha => hm a (fun q hq _ => ?_))
      have hq := dep_mem.1 hq
      exact ha _ _ (by omega) hq.1) m
  rw [hF]
  constructor
  · intro i j hij hj
    exact this.1 (j, i) (dep_mem.2 ⟨hj, by simp only; omega⟩)
  · intro a ha
    refine this.2 a (fun p hp => ?_)
    have hp := dep_mem.1 hp
    exact ha _ _ (by omega) hp.1

/-- `B` is `P P^T + k I` after `dsyrk` and the loop on the diagonal. -/
theorem syrk_diag (P B : DMat) (hB : B.rows ≤ B.ld) (hPB : B.rows = P.rows) (hc : B.cols = B.rows)
    (hd : MatDisjoint P B) (k : ℝ) (m : Mem ℝ) :
    let m' := addDiag P.rows B.data B.ld k (dsyrk P.rows P.cols P.data P.ld B.data B.ld m)
    (symU P.rows B.data B.ld m' = P.den m * (P.den m)ᵀ + k • (1 : Matrix _ _ ℝ)) ∧
    ∀ a, (∀ i j, i ≤ j → j < B.rows → a ≠ B.ref i j) → m' a = m a := by
  intro m'
  have hs := tri_write B hB (fun i j m => forN P.cols (fun l s => s + m (P.ref i l) * m (P.ref j l)) 0)
    (fun j hj i hi m m' h => by
      simp only [forN_sum, zero_add]
      refine Finset.sum_congr rfl (fun l hl => ?_)
      have hl := Finset.mem_range.1 hl
      rw [h _ (fun i' j' h1 h2 => hd i (by omega) l hl i' (by omega) j' (by omega)),
        h _ (fun i' j' h1 h2 => hd j (by omega) l hl i' (by omega) j' (by omega))]) m
  have es : forN B.rows (fun j m => forN (j + 1) (fun i m => store m (B.ref i j)
    (forN P.cols (fun l s => s + m (P.ref i l) * m (P.ref j l)) 0)) m) m =
      dsyrk P.rows P.cols P.data P.ld B.data B.ld m := by rw [hPB]; rfl
  rw [es] at hs
  set m1 := dsyrk P.rows P.cols P.data P.ld B.data B.ld m with hm1
  have hdg : m' = forN P.rows (fun i m => store m (B.ref i i) (m (B.ref i i) + k)) m1 := by
    show addDiag _ _ _ _ _ = _
    rw [addDiag, forPtr_count P.rows B.data _ (B.ld + 1) (by omega)
      (by rw [Nat.mul_succ]; omega)]
    · congr 1
      funext i m
      rw [show B.data + i * (B.ld + 1) = B.ref i i by simp only [DMat.ref]; ring]
    · intro i hi
      obtain ⟨d, hd⟩ : ∃ d, P.rows = i + 1 + d := ⟨P.rows - (i + 1), by omega⟩
      rw [hd, Nat.mul_succ, Nat.add_mul, Nat.add_mul]
      have : 0 < B.ld := by omega
      have hle : P.rows ≤ B.ld := by omega
      omega
  have hst := forN_store (K := ℝ) P.rows (fun i => B.ref i i) (fun i m => m (B.ref i i) + k)
    (fun a ha b hb e => (mref_inj hB (by omega) (by omega) e).1)
    (fun i hi m m' h => by
      rw [h _ (fun l hl hne e => hne ((mref_inj hB (by omega) (by omega) e).1.symm))]) m1
  rw [← hdg] at hst
  have fr : ∀ a, (∀ i j, i ≤ j → j < B.rows → a ≠ B.ref i j) → m' a = m a := by
    intro a ha
    rw [hst.2 a (fun l hl => ha l l le_rfl (by omega)), hs.2 a ha]
  have val : ∀ i j, i ≤ j → j < P.rows → m' (B.ref i j) =
      (∑ l : Fin P.cols, m (P.ref i l) * m (P.ref j l)) + if i = j then k else 0 := by
    intro i j hij hj
    have h1 := hs.1 i j hij (by omega)
    simp only [forN_sum, zero_add, Finset.sum_range] at h1
    by_cases e : i = j
    · subst e
      rw [hst.1 i hj, h1, if_pos rfl]
    · rw [if_neg e, add_zero, hst.2 _ (fun l hl e' => ?_), h1]
      obtain ⟨e1, e2⟩ := mref_inj hB (by omega) (by omega) e'
      exact e (by omega)
  refine ⟨?_, fr⟩
  ext i j
  rw [Matrix.add_apply, Matrix.smul_apply, Matrix.mul_apply, Matrix.one_apply, smul_eq_mul, mul_ite, mul_one, mul_zero]
  simp only [symU, Matrix.transpose_apply, DMat.den]
  by_cases hij : i ≤ j
  · rw [if_pos hij]
    refine (val i j hij j.2).trans ?_
    simp only [Fin.ext_iff]
  · rw [if_neg hij]
    push Not at hij
    refine (val j i (le_of_lt hij) i.2).trans ?_
    rw [if_neg (by have := Fin.lt_def.1 hij; omega), if_neg (ne_of_gt hij)]
    congr 1
    exact Finset.sum_congr rfl (fun l _ => mul_comm _ _)

/-- effect of `cholSolve`. -/
theorem cholSolve_spec (chol : Mem ℝ → Nat → Nat → ℝ) (P B : DMat) (hP : P.rows ≤ P.ld) (hB : B.rows ≤ B.ld)
    (hPB : B.rows = P.rows) (hc : B.cols = B.rows) (hd : MatDisjoint P B) (k : ℝ) (m : Mem ℝ)
    (hpd : (P.den m * (P.den m)ᵀ + k • (1 : Matrix _ _ ℝ)).PosDef) :
    ∃ m', cholSolve chol P.rows P.cols k P.data P.ld B.data B.ld m = (m', 0) ∧
      P.den m' = (P.den m * (P.den m)ᵀ + k • (1 : Matrix _ _ ℝ))⁻¹ * P.den m ∧
      ∀ a, (∀ i < P.rows, ∀ j < P.cols, a ≠ P.ref i j) →
        (∀ i < P.rows, ∀ j < P.rows, a ≠ B.ref i j) → m' a = m a := by
  obtain ⟨h1, h2⟩ := syrk_diag P B hB hPB hc hd k m
  simp only [cholSolve]
  set m1 := addDiag P.rows B.data B.ld k (dsyrk P.rows P.cols P.data P.ld B.data B.ld m) with hm1
  have hr : rhs P.rows P.cols P.data P.ld m1 = P.den m := by
    ext i j
    exact h2 _ (fun i' j' hij hj' => hd i i.2 j j.2 i' (by omega) j' (by omega))
  unfold dposv
  rw [h1, hr]
  simp only
  rw [if_pos hpd]
  refine ⟨_, rfl, ?_⟩
  have ht := tri_write B hB (fun i j _ => chol m1 i j) (fun _ _ _ _ _ _ _ => rfl) m1
  have hw := forN_mat hP (fun i j (_ : Mem ℝ) => if h : i < P.rows ∧ j < P.cols then
      (((P.den m * (P.den m)ᵀ + k • (1 : Matrix _ _ ℝ))⁻¹ * P.den m : Matrix (Fin P.rows) (Fin P.cols) ℝ)) ⟨i, h.1⟩ ⟨j, h.2⟩ else 0)
    (fun _ _ _ _ _ _ _ => rfl)
    (forN P.rows (fun j m1' => forN (j + 1) (fun i m1' => store m1' (B.data + (B.ld * j + i)) (chol m1 i j)) m1') m1)
  constructor
  · ext i j
    refine (hw.1 i i.2 j j.2).trans ?_
    exact dif_pos ⟨i.2, j.2⟩
  · intro a ha hb
    refine (hw.2 a ha).trans ?_
    have : forN P.rows (fun j m1' => forN (j + 1) (fun i m1' => store m1' (B.data + (B.ld * j + i)) (chol m1 i j)) m1') m1
      = forN B.rows (fun j m => forN (j + 1) (fun i m => store m (B.ref i j) (chol m1 i j)) m) m1 := by
      rw [hPB]; rfl
    rw [this, ht.2 a (fun i j hij hj => hb i (by omega) j (by omega)),
      h2 a (fun i j hij hj => hb i (by omega) j (by omega))]

theorem posDef_damped {p q : Type*} [Fintype p] [Fintype q] [DecidableEq p] (A : Matrix p q ℝ) {k : ℝ}
    (hk : 0 < k) : (A * Aᵀ + k • (1 : Matrix p p ℝ)).PosDef := by
  have h1 : (A * Aᵀ).PosSemidef := by
    have := Matrix.posSemidef_self_mul_conjTranspose A
    rwa [Matrix.conjTranspose_eq_transpose_of_trivial] at this
  have h2 : (k • (1 : Matrix p p ℝ)).PosDef := Matrix.PosDef.one.smul hk
  exact h2.posSemidef_add h1

theorem push_through {p q : Type*} [Fintype p] [Fintype q] [DecidableEq p] [DecidableEq q] (A : Matrix p q ℝ) {k : ℝ}
    (hk : 0 < k) :
    (Aᵀ * A + k • (1 : Matrix q q ℝ))⁻¹ * Aᵀ = Aᵀ * (A * Aᵀ + k • (1 : Matrix p p ℝ))⁻¹ := by
  have u1 : IsUnit (A * Aᵀ + k • (1 : Matrix p p ℝ)).det :=
    (Matrix.isUnit_iff_isUnit_det _).1 (posDef_damped A hk).isUnit
  have u2 : IsUnit (Aᵀ * A + k • (1 : Matrix q q ℝ)).det := by
    have := (Matrix.isUnit_iff_isUnit_det _).1 (posDef_damped Aᵀ hk).isUnit
    rwa [Matrix.transpose_transpose] at this
  have e : (Aᵀ * A + k • (1 : Matrix q q ℝ)) * Aᵀ = Aᵀ * (A * Aᵀ + k • (1 : Matrix p p ℝ)) := by
    rw [Matrix.add_mul, Matrix.mul_add, Matrix.mul_assoc]
    simp
  calc _ = (Aᵀ * A + k • (1 : Matrix q q ℝ))⁻¹ * (Aᵀ * ((A * Aᵀ + k • (1 : Matrix p p ℝ)) * (A * Aᵀ + k • (1 : Matrix p p ℝ))⁻¹)) := by
        rw [Matrix.mul_nonsing_inv _ u1, Matrix.mul_one]
    _ = (Aᵀ * A + k • (1 : Matrix q q ℝ))⁻¹ * ((Aᵀ * A + k • (1 : Matrix q q ℝ)) * Aᵀ * (A * Aᵀ + k • (1 : Matrix p p ℝ))⁻¹) := by
        rw [e, Matrix.mul_assoc]
    _ = _ := by
        rw [Matrix.mul_assoc, ← Matrix.mul_assoc _ _ (Aᵀ * _), Matrix.nonsing_inv_mul _ u2, Matrix.one_mul]

theorem trans_inv {p q : Type*} [Fintype p] [Fintype q] [DecidableEq p] (A : Matrix p q ℝ) (k : ℝ) :
    ((A * Aᵀ + k • (1 : Matrix p p ℝ))⁻¹ * A)ᵀ = Aᵀ * (A * Aᵀ + k • (1 : Matrix p p ℝ))⁻¹ := by
  rw [Matrix.transpose_mul, Matrix.transpose_nonsing_inv]
  simp [Matrix.transpose_mul]

end Verif.Pinv
