import Verif.Model.DuquMat
import Verif.Prop.Mat
import Verif.Prop.Vel
import Verif.Prop.Lnv

/-!
# C111: dual quaternions as arrays and matrices
-/

namespace Verif.Tf

open Verif.Mat

/-! ## Spec -/

/-- element `k` of the array of eight. -/
noncomputable def Duqu.el (S : Duqu) (k : Nat) : ℝ := if k < 4 then S.real.el k else S.dual.el (k - 4)

/-- element `k` of the array of three. -/
noncomputable def V3.el (v : V3) (k : Nat) : ℝ := if k = 0 then v.x else if k = 1 then v.y else v.z

/-- product of a matrix of `c` columns in memory and a vector, row `i`. -/
noncomputable def mulAt (c M ld : Nat) (m : Mem ℝ) (x : Nat → ℝ) (i : Nat) : ℝ :=
  ∑ j ∈ Finset.range c, m (M + (ld * j + i)) * x j

/-- the addresses of a `rows` by `cols` matrix. -/
def InMat (rows cols M ld a : Nat) : Prop := ∃ j < cols, ∃ i < rows, a = M + (ld * j + i)

/-! ## Memory -/

theorem addr_inj {M ld j i j' i' r : Nat} (hr : r ≤ ld) (hi : i < r) (hi' : i' < r)
    (e : M + (ld * j + i) = M + (ld * j' + i')) : j = j' ∧ i = i' := by
  have h1 : ld * j + i = ld * j' + i' := by omega
  have h2 : (ld * j + i) / ld = j := by
    rw [Nat.mul_add_div (by omega), Nat.div_eq_of_lt (by omega)]; rfl
  have h3 : (ld * j' + i') / ld = j' := by
    rw [Nat.mul_add_div (by omega), Nat.div_eq_of_lt (by omega)]; rfl
  have : j = j' := by rw [← h2, h1, h3]
  subst this
  omega

theorem duquMatrixOf_spec (Q : Quat → M4) (S : Duqu) (M ld : Nat) (hld : 8 ≤ ld) (m : Mem ℝ) :
    (∀ j < 8, ∀ i < 8, duquMatrixOf Q S M ld m (M + (ld * j + i)) =
      if j < 4 then (if i < 4 then (Q S.real).el i j else (Q S.dual).el (i - 4) j)
      else if i < 4 then 0 else (Q S.real).el (i - 4) (j - 4)) ∧
    ∀ a, ¬ InMat 8 8 M ld a → duquMatrixOf Q S M ld m a = m a := by
  -- each step writes a block of four by four
  have blk : ∀ (j0 i0 : Nat) (h : Nat → Nat → Mem ℝ → ℝ), i0 + 4 ≤ 8 →
      (∀ j < 4, ∀ i < 4, ∀ m m' : Mem ℝ, (∀ a, (∀ j' < 4, ∀ i' < 4, a ≠ M + (ld * (j0 + j') + (i0 + i'))) ∨
        a = M + (ld * (j0 + j) + (i0 + i)) → m a = m' a) → h j i m = h j i m') → ∀ m : Mem ℝ,
      (∀ j < 4, ∀ i < 4, forN 4 (fun j m => forN 4 (fun i m =>
        store m (M + ld * j0 + i0 + (ld * j + i)) (h j i m)) m) m (M + (ld * (j0 + j) + (i0 + i))) = h j i m) ∧
      ∀ a, (∀ j' < 4, ∀ i' < 4, a ≠ M + (ld * (j0 + j') + (i0 + i'))) → forN 4 (fun j m => forN 4 (fun i m =>
        store m (M + ld * j0 + i0 + (ld * j + i)) (h j i m)) m) m a = m a := by
    intro j0 i0 h hi0 hl m
    have ea : ∀ j i, M + ld * j0 + i0 + (ld * j + i) = M + (ld * (j0 + j) + (i0 + i)) := by intros; ring
    simp only [ea]
    have := forN_store2 (K := ℝ) 4 4 (fun j i => M + (ld * (j0 + j) + (i0 + i))) h
      (fun j hj i hi j' hj' i' hi' e => by
        have := addr_inj (r := 8) hld (by omega) (by omega) e
        omega)
      (fun j hj i hi m m' hm => hl j hj i hi m m' fun a ha => hm a fun j' hj' i' hi' hne => by
        rcases ha with ha | rfl
        · exact ha j' hj' i' hi'
        · intro e
          have := addr_inj (r := 8) hld (by omega) (by omega) e
          exact hne (by rw [Prod.mk.injEq]; omega)) m
    exact this
  obtain ⟨a1, a2⟩ := blk 0 0 (fun j i _ => (Q S.real).el i j) (by omega) (fun _ _ _ _ _ _ _ => rfl) m
  obtain ⟨b1, b2⟩ := blk 0 4 (fun j i _ => (Q S.dual).el i j) (by omega) (fun _ _ _ _ _ _ _ => rfl)
    (putM4 M ld (Q S.real) m)
  obtain ⟨c1, c2⟩ := blk 4 0 (fun _ _ _ => 0) (by omega) (fun _ _ _ _ _ _ _ => rfl)
    (putM4 (M + 4) ld (Q S.dual) (putM4 M ld (Q S.real) m))
  obtain ⟨d1, d2⟩ := blk 4 4 (fun j i m => m (M + (ld * j + i))) (by omega) (fun j hj i hi m m' h => h _ (Or.inl
      fun j' hj' i' hi' e => by
        have := addr_inj (r := 8) hld (by omega) (by omega) e
        omega)) (zero44 (M + ld * 4) ld (putM4 (M + 4) ld (Q S.dual) (putM4 M ld (Q S.real) m)))
  simp only [mul_zero, add_zero, zero_add] at a1 a2 b1 b2 c1 c2
  change ∀ j < 4, ∀ i < 4, putM4 M ld (Q S.real) m (M + (ld * j + i)) = _ at a1
  change ∀ a, _ → putM4 M ld (Q S.real) m a = _ at a2
  change ∀ j < 4, ∀ i < 4, putM4 (M + 4) ld (Q S.dual) (putM4 M ld (Q S.real) m) _ = _ at b1
  change ∀ a, _ → putM4 (M + 4) ld (Q S.dual) (putM4 M ld (Q S.real) m) a = _ at b2
  change ∀ j < 4, ∀ i < 4, zero44 (M + ld * 4) ld (putM4 (M + 4) ld (Q S.dual) (putM4 M ld (Q S.real) m)) _ = _ at c1
  change ∀ a, _ → zero44 (M + ld * 4) ld (putM4 (M + 4) ld (Q S.dual) (putM4 M ld (Q S.real) m)) a = _ at c2
  change ∀ j < 4, ∀ i < 4, duquMatrixOf Q S M ld m _ = _ at d1
  change ∀ a, _ → duquMatrixOf Q S M ld m a = _ at d2
  have nb : ∀ j i j0 i0, i < 8 → i0 + 4 ≤ 8 → ¬ (j0 ≤ j ∧ j < j0 + 4 ∧ i0 ≤ i ∧ i < i0 + 4) →
      ∀ j' < 4, ∀ i' < 4, M + (ld * j + i) ≠ M + (ld * (j0 + j') + (i0 + i')) := by
    intro j i j0 i0 hi hi0 hn j' hj' i' hi' e
    have := addr_inj (r := 8) hld (by omega) (by omega) e
    omega
  have nb0 : ∀ j i i0, i < 8 → i0 + 4 ≤ 8 → ¬ (j < 4 ∧ i0 ≤ i ∧ i < i0 + 4) →
      ∀ j' < 4, ∀ i' < 4, M + (ld * j + i) ≠ M + (ld * j' + (i0 + i')) := by
    intro j i i0 hi hi0 hn j' hj' i' hi' e
    have := addr_inj (r := 8) hld (by omega) (by omega) e
    omega
  have tl : ∀ j < 4, ∀ i < 4, zero44 (M + ld * 4) ld (putM4 (M + 4) ld (Q S.dual) (putM4 M ld (Q S.real) m))
      (M + (ld * j + i)) = (Q S.real).el i j := by
    intro j hj i hi
    have n1 := nb j i 4 0 (by omega) (by omega) (by omega)
    simp only [zero_add] at n1
    rw [c2 _ n1, b2 _ (nb0 j i 4 (by omega) (by omega) (by omega)), a1 j hj i hi]
  refine ⟨fun j hj i hi => ?_, fun a ha => ?_⟩
  · by_cases hj4 : j < 4
    · rw [if_pos hj4]
      by_cases hi4 : i < 4
      · rw [if_pos hi4, d2 _ (nb j i 4 4 hi (by omega) (by omega)), tl j hj4 i hi4]
      · rw [if_neg hi4, d2 _ (nb j i 4 4 hi (by omega) (by omega))]
        have n1 := nb j i 4 0 hi (by omega) (by omega)
        simp only [zero_add] at n1
        rw [c2 _ n1]
        have := b1 j hj4 (i - 4) (by omega)
        rwa [show 4 + (i - 4) = i by omega] at this
    · rw [if_neg hj4]
      by_cases hi4 : i < 4
      · rw [if_pos hi4, d2 _ (nb j i 4 4 hi (by omega) (by omega))]
        have := c1 (j - 4) (by omega) i hi4
        rwa [show 4 + (j - 4) = j by omega] at this
      · rw [if_neg hi4]
        have := d1 (j - 4) (by omega) (i - 4) (by omega)
        rw [show 4 + (j - 4) = j by omega, show 4 + (i - 4) = i by omega, tl (j - 4) (by omega) (i - 4) (by omega)] at this
        exact this
  · rw [d2 a fun j' hj' i' hi' e => ha ⟨4 + j', by omega, 4 + i', by omega, e⟩,
      c2 a fun j' hj' i' hi' e => ha ⟨4 + j', by omega, i', by omega, e⟩,
      b2 a fun j' hj' i' hi' e => ha ⟨j', by omega, 4 + i', by omega, e⟩,
      a2 a fun j' hj' i' hi' e => ha ⟨j', by omega, i', by omega, e⟩]

/-- **C111 (matrices of multiplication).** With any leading dimension of at least eight the matrices of
`aa_tf_duqu_matrix_l` and `aa_tf_duqu_matrix_r` multiply by the dual quaternion from the left and from the
right, and nothing outside the matrix is changed. -/
theorem C111_matrix (S p : Duqu) (M ld : Nat) (hld : 8 ≤ ld) (m : Mem ℝ) :
    (∀ i < 8, mulAt 8 M ld (duquMatrixL S M ld m) p.el i = (duquMul S p).el i) ∧
    (∀ i < 8, mulAt 8 M ld (duquMatrixR S M ld m) p.el i = (duquMul p S).el i) ∧
    ∀ a, ¬ InMat 8 8 M ld a → duquMatrixL S M ld m a = m a ∧ duquMatrixR S M ld m a = m a := by
  obtain ⟨l1, l2⟩ := duquMatrixOf_spec qmatrixL S M ld hld m
  obtain ⟨r1, r2⟩ := duquMatrixOf_spec qmatrixR S M ld hld m
  refine ⟨fun i hi => ?_, fun i hi => ?_, fun a ha => ⟨l2 a ha, r2 a ha⟩⟩
  · rw [mulAt, Finset.sum_congr rfl fun j hj => by rw [duquMatrixL, l1 j (Finset.mem_range.1 hj) i hi]]
    interval_cases i <;>
      simp [Finset.sum_range_succ, Duqu.el, Quat.el, M4.el, qmatrixL, duquMul, qmul, qmulA] <;> ring
  · rw [mulAt, Finset.sum_congr rfl fun j hj => by rw [duquMatrixR, r1 j (Finset.mem_range.1 hj) i hi]]
    interval_cases i <;>
      simp [Finset.sum_range_succ, Duqu.el, Quat.el, M4.el, qmatrixR, duquMul, qmul, qmulA] <;> ring

theorem crossMat_spec (v : V3) (M ld : Nat) (hld : 3 ≤ ld) (m : Mem ℝ) :
    (∀ j < 3, ∀ i < 3, crossMatL v M ld m (M + (ld * j + i)) =
      if j = 0 then (⟨0, v.z, -v.y⟩ : V3).el i else if j = 1 then (⟨-v.z, 0, v.x⟩ : V3).el i
      else (⟨v.y, -v.x, 0⟩ : V3).el i) ∧
    (∀ j < 3, ∀ i < 3, crossMatR v M ld m (M + (ld * j + i)) =
      if j = 0 then (⟨0, -v.z, v.y⟩ : V3).el i else if j = 1 then (⟨v.z, 0, -v.x⟩ : V3).el i
      else (⟨-v.y, v.x, 0⟩ : V3).el i) ∧
    ∀ a, ¬ InMat 3 3 M ld a → crossMatL v M ld m a = m a ∧ crossMatR v M ld m a = m a := by
  have st : ∀ (m : Mem ℝ) (a b : Nat) (x : ℝ), store m a x b = if b = a then x else m b := fun _ _ _ _ => rfl
  refine ⟨fun j hj i hi => ?_, fun j hj i hi => ?_, fun a ha => ?_⟩
  · interval_cases j <;> interval_cases i <;> simp only [crossMatL, st] <;>
      (repeat first | rw [if_neg (by omega)] | rw [if_pos (by omega)]) <;> simp [V3.el]
  · interval_cases j <;> interval_cases i <;> simp only [crossMatR, st] <;>
      (repeat first | rw [if_neg (by omega)] | rw [if_pos (by omega)]) <;> simp [V3.el]
  · have hn : ∀ j < 3, ∀ i < 3, a ≠ M + (ld * j + i) := fun j hj i hi e => ha ⟨j, hj, i, hi, e⟩
    have e00 : a ≠ M := by simpa using hn 0 (by norm_num) 0 (by norm_num)
    have e01 : a ≠ M + 1 := by simpa using hn 0 (by norm_num) 1 (by norm_num)
    have e02 : a ≠ M + 2 := by simpa using hn 0 (by norm_num) 2 (by norm_num)
    have e10 : a ≠ M + ld := by simpa using hn 1 (by norm_num) 0 (by norm_num)
    have e11 : a ≠ M + ld + 1 := by simpa [add_assoc] using hn 1 (by norm_num) 1 (by norm_num)
    have e12 : a ≠ M + ld + 2 := by simpa [add_assoc] using hn 1 (by norm_num) 2 (by norm_num)
    have e20 : a ≠ M + ld * 2 := by simpa using hn 2 (by norm_num) 0 (by norm_num)
    have e21 : a ≠ M + ld * 2 + 1 := by simpa [add_assoc] using hn 2 (by norm_num) 1 (by norm_num)
    have e22 : a ≠ M + ld * 2 + 2 := by simpa [add_assoc] using hn 2 (by norm_num) 2 (by norm_num)
    simp [crossMatL, crossMatR, st, e00, e01, e02, e10, e11, e12, e20, e21, e22]

/-- **C111 (cross product matrices).** -/
theorem C111_cross (v a : V3) (M ld : Nat) (hld : 3 ≤ ld) (m : Mem ℝ) :
    (∀ i < 3, mulAt 3 M ld (crossMatL v M ld m) a.el i = (cross v a).el i) ∧
    (∀ i < 3, mulAt 3 M ld (crossMatR v M ld m) a.el i = (cross a v).el i) ∧
    ∀ b, ¬ InMat 3 3 M ld b → crossMatL v M ld m b = m b ∧ crossMatR v M ld m b = m b := by
  obtain ⟨l1, r1, h⟩ := crossMat_spec v M ld hld m
  refine ⟨fun i hi => ?_, fun i hi => ?_, h⟩
  · rw [mulAt, Finset.sum_congr rfl fun j hj => by rw [l1 j (Finset.mem_range.1 hj) i hi]]
    interval_cases i <;> simp [Finset.sum_range_succ, V3.el, cross] <;> ring
  · rw [mulAt, Finset.sum_congr rfl fun j hj => by rw [r1 j (Finset.mem_range.1 hj) i hi]]
    interval_cases i <;> simp [Finset.sum_range_succ, V3.el, cross] <;> ring

/-! ## The Jacobian -/

/-- the velocity of a motion of the joints with rates `f`. -/
noncomputable def velOf (n : Nat) (J : Nat → Nat → ℝ) (f : Nat → ℝ) : Dx :=
  let r := fun i => ∑ c ∈ Finset.range n, J i c * f c
  ⟨⟨r 0, r 1, r 2⟩, ⟨r 3, r 4, r 5⟩⟩

noncomputable def Dx.el (d : Dx) (k : Nat) : ℝ := if k < 3 then d.v.el k else d.w.el (k - 3)

theorem velMat_eq (v : V3) : ∀ j < 6, ∀ i < 8, velMat v (8 * j + i) =
    if j < 3 then (if i = j + 4 then 1 else 0)
    else if i < 4 then (if i + 3 = j then 1 else 0)
    else if i = 7 then 0
    else if j = 3 then (⟨0, v.z, -v.y⟩ : V3).el (i - 4) else if j = 4 then (⟨-v.z, 0, v.x⟩ : V3).el (i - 4)
      else (⟨v.y, -v.x, 0⟩ : V3).el (i - 4) := by
  have st : ∀ (m : Mem ℝ) (a b : Nat) (x : ℝ), store m a x b = if b = a then x else m b := fun _ _ _ _ => rfl
  intro j hj i hi
  interval_cases j <;> interval_cases i <;> simp [velMat, crossMatL, st, V3.el, forN, List.range_succ]

theorem gemm_velMat (A : Nat → Nat → ℝ) (v : V3) (x : Dx) (i : Nat) :
    ∑ k ∈ Finset.range 6, gemm 8 A (fun i j => velMat v (8 * j + i)) i k * x.el k =
      ∑ l ∈ Finset.range 8, A i l * (vel2twist v x).pure.el l := by
  have h : ∀ k < 6, gemm 8 A (fun i j => velMat v (8 * j + i)) i k = ∑ l ∈ Finset.range 8, A i l *
      (if k < 3 then (if l = k + 4 then 1 else 0)
      else if l < 4 then (if l + 3 = k then 1 else 0)
      else if l = 7 then 0
      else if k = 3 then (⟨0, v.z, -v.y⟩ : V3).el (l - 4) else if k = 4 then (⟨-v.z, 0, v.x⟩ : V3).el (l - 4)
        else (⟨v.y, -v.x, 0⟩ : V3).el (l - 4)) := fun k hk =>
    Finset.sum_congr rfl fun l hl => by
      show A i l * velMat v (8 * k + l) = _
      rw [velMat_eq v k hk l (Finset.mem_range.1 hl)]
  rw [Finset.sum_congr rfl fun k hk => by rw [h k (Finset.mem_range.1 hk)]]
  simp [Finset.sum_range_succ, Dx.el, V3.el, Duqu.el, Quat.el, vel2twist, crossA, Dx.pure, mkq]
  ring

/-- **C111 (Jacobian).** The columns of `aa_tf_duqu_jac_vel2diff` map joint rates to what
`aa_tf_duqu_vel2diff` makes of the velocity of those rates, whatever the scratch memory holds. -/
theorem C111_jacobian (g : Mem ℝ) (S : Duqu) (n : Nat) (Jvel : Nat → Nat → ℝ) (f : Nat → ℝ) :
    ∀ i < 8, ∑ c ∈ Finset.range n, duquJacVel2diff g S Jvel i c * f c =
      (duquVel2diff S (velOf n Jvel f)).el i := by
  intro i hi
  have hx : ∀ k < 6, (velOf n Jvel f).el k = ∑ c ∈ Finset.range n, Jvel k c * f c := by
    intro k hk
    interval_cases k <;> simp [velOf, Dx.el, V3.el]
  have h1 : ∑ c ∈ Finset.range n, duquJacVel2diff g S Jvel i c * f c =
      ∑ k ∈ Finset.range 6, gemm 8 (fun i j => duquMatrixR (duquSmul 0.5 S) 0 8 g (8 * j + i))
        (fun i j => velMat (duquTrans S) (8 * j + i)) i k * (velOf n Jvel f).el k := by
    have e : ∀ G : Nat → ℝ, ∑ k ∈ Finset.range 6, G k * (velOf n Jvel f).el k =
        ∑ c ∈ Finset.range n, ∑ k ∈ Finset.range 6, G k * (Jvel k c * f c) := by
      intro G
      rw [Finset.sum_comm]
      exact Finset.sum_congr rfl fun k hk => by rw [hx k (Finset.mem_range.1 hk), Finset.mul_sum]
    rw [e]
    refine Finset.sum_congr rfl fun c _ => ?_
    show gemm 6 _ Jvel i c * f c = _
    rw [gemm, Finset.sum_mul]
    exact Finset.sum_congr rfl fun k _ => by ring
  rw [h1, gemm_velMat]
  have h2 := (C111_matrix (duquSmul 0.5 S) (vel2twist (duquTrans S) (velOf n Jvel f)).pure 0 8 le_rfl g).2.1 i hi
  simp only [mulAt, zero_add] at h2
  rw [h2, duquVel2diff, duquTwist2diff, duquVel2twist]
  generalize (vel2twist (duquTrans S) (velOf n Jvel f)).pure = T
  interval_cases i <;> simp [Duqu.el, Quat.el, duquMul, qmul, qmulA, duquSmul] <;> ring

/-- **C111 (Jacobian along a motion).** If a pose moves along a differentiable path and the Jacobian gives
its velocity, the dual quaternion Jacobian gives the derivative of its dual quaternion. -/
theorem C111_derivative (g : Mem ℝ) (S : ℝ → Duqu) (dS : Duqu) (t : ℝ) (h : Duqu.HasDeriv S dS t)
    (hv : ∀ s, (S s).Valid) (n : Nat) (Jvel : Nat → Nat → ℝ) (f : Nat → ℝ)
    (hJ : velOf n Jvel f = duquDiff2vel (S t) dS) :
    ∀ i < 8, ∑ c ∈ Finset.range n, duquJacVel2diff g (S t) Jvel i c * f c = dS.el i := by
  intro i hi
  rw [C111_jacobian g (S t) n Jvel f i hi, hJ, (C31_duqu S dS t h hv).1]

/-- a screw motion along the x axis, moved by one joint. -/
example : ∃ (J : Nat → Nat → ℝ), velOf 1 J (fun _ => 2) = ⟨⟨2, 0, 0⟩, ⟨4, 0, 0⟩⟩ ∧
    (duquVel2diff duquident (velOf 1 J fun _ => 2)).el 0 = 2 := by
  refine ⟨fun i _ => if i = 0 then 1 else if i = 3 then 2 else 0, ?_⟩
  norm_num [velOf, duquVel2diff, duquTwist2diff, duquVel2twist, vel2twist, crossA, Dx.pure, mkq, duquident, qident,
    duquMul, qmul, Duqu.el, Quat.el]

/-- a pose that moves along x with time, driven by one joint: the hypotheses of `C111_derivative`. -/
example : let S : ℝ → Duqu := fun s => ⟨⟨0, 0, 0, 1⟩, ⟨s / 2, 0, 0, 0⟩⟩
    let dS : Duqu := ⟨⟨0, 0, 0, 0⟩, ⟨1 / 2, 0, 0, 0⟩⟩
    Duqu.HasDeriv S dS 3 ∧ (∀ s, (S s).Valid) ∧
    velOf 1 (fun i _ => if i = 0 then 1 else 0) (fun _ => 1) = duquDiff2vel (S 3) dS := by
  intro S dS
  refine ⟨⟨?_, ?_⟩, fun s => ?_, ?_⟩
  · have h : ∀ s : ℝ, (S s).real.den = (S 0).real.den := fun _ => rfl
    have e : dS.real.den = 0 := by ext <;> rfl
    rw [Quat.HasDeriv, e]
    exact hasDerivAt_const (3 : ℝ) (S 0).real.den
  · rw [Quat.HasDeriv]
    have h : ∀ s : ℝ, (S s).dual.den = s • dS.dual.den := by
      intro s
      ext
      · show (0 : ℝ) = s * 0; ring
      · show s / 2 = s * (1 / 2); ring
      · show (0 : ℝ) = s * 0; ring
      · show (0 : ℝ) = s * 0; ring
    simp only [h]
    simpa using (hasDerivAt_id (3 : ℝ)).smul_const dS.dual.den
  · norm_num [S, Duqu.Valid, Unit, qdot]
  · norm_num [S, dS, velOf, duquDiff2vel, qdiff2vel, qmulcV]

/-! ## Norms and arithmetic -/

/-- **C111 (arithmetic).** Sums, differences and multiples are taken in each of the eight elements. -/
theorem C111_arith (a : ℝ) (A B : Duqu) :
    (∀ k < 8, (duquAdd A B).el k = A.el k + B.el k) ∧ (∀ k < 8, (duquSub A B).el k = A.el k - B.el k) ∧
    ∀ k < 8, (duquSmul a A).el k = a * A.el k := by
  refine ⟨fun k hk => ?_, fun k hk => ?_, fun k hk => ?_⟩ <;>
    interval_cases k <;> simp [Duqu.el, Quat.el, duquAdd, duquSub, duquSmul, qadd, qsub, mul_comm]

theorem qdot_qmul (a b : Quat) : qdot (qmul a b) (qmul a b) = qdot a a * qdot b b := by
  simp only [qdot, qmul]; ring

theorem qnorm_qmul (a b : Quat) : qnorm (qmul a b) = qnorm a * qnorm b := by
  rw [qnorm, qdot_qmul, Real.sqrt_mul (by simp only [qdot]; nlinarith [sq_nonneg a.x, sq_nonneg a.y, sq_nonneg a.z, sq_nonneg a.w])]
  rfl

theorem qnorm_mul_self (a : Quat) : qnorm a * qnorm a = qdot a a :=
  Real.mul_self_sqrt (by simp only [qdot]; nlinarith [sq_nonneg a.x, sq_nonneg a.y, sq_nonneg a.z, sq_nonneg a.w])

/-- **C111 (norm).** `aa_tf_duqu_norm` fails exactly for a zero real part. Otherwise the square of the
dual number it returns is the product of the dual quaternion and its conjugate, and the norm of a product is
the product of the norms. A valid pose has norm one. -/
theorem C111_norm (A B : Duqu) :
    (duquNorm A = none ↔ A.real = ⟨0, 0, 0, 0⟩) ∧
    (∀ r d, duquNorm A = some (r, d) → 0 < r ∧
      duquMul A (duquConj A) = ⟨⟨0, 0, 0, r * r⟩, ⟨0, 0, 0, r * d + d * r⟩⟩) ∧
    (∀ r d r' d', duquNorm A = some (r, d) → duquNorm B = some (r', d') →
      duquNorm (duquMul A B) = some (r * r', r * d' + d * r')) ∧
    (A.Valid → duquNorm A = some (1, 0)) := by
  have pos : ∀ q, 0 ≤ qnorm q := fun q => Real.sqrt_nonneg _
  refine ⟨?_, fun r d h => ?_, fun r d r' d' h h' => ?_, fun h => ?_⟩
  · rw [duquNorm]
    constructor
    · intro h
      have h0 : qnorm A.real = 0 := by
        by_contra hn; rw [if_neg hn] at h; cases h
      have h1 := qnorm_mul_self A.real
      rw [h0, zero_mul] at h1
      simp only [qdot] at h1
      ext <;> simp only <;> nlinarith [sq_nonneg A.real.x, sq_nonneg A.real.y, sq_nonneg A.real.z, sq_nonneg A.real.w]
    · intro h
      rw [if_pos (by rw [h]; simp [qnorm, qdot])]
  · rw [duquNorm] at h
    split_ifs at h with hn
    injection h with h
    injection h with h1 h2
    subst h1; subst h2
    refine ⟨lt_of_le_of_ne (pos _) (Ne.symm hn), ?_⟩
    rw [qnorm_mul_self, mul_div_cancel₀ _ hn, div_mul_cancel₀ _ hn]
    ext <;> simp [duquMul, duquConj, qmul, qmulA, qconj, qdot] <;> ring
  · rw [duquNorm] at h h'
    split_ifs at h with hn
    split_ifs at h' with hn'
    injection h with h; injection h with h1 h2
    injection h' with h'; injection h' with h1' h2'
    subst h1; subst h2; subst h1'; subst h2'
    have hm : qnorm (duquMul A B).real = qnorm A.real * qnorm B.real := qnorm_qmul _ _
    rw [duquNorm, hm, if_neg (mul_ne_zero hn hn')]
    congr 2
    have e : qdot (duquMul A B).real (duquMul A B).dual =
        qdot A.real A.real * qdot B.real B.dual + qdot A.real A.dual * qdot B.real B.real := by
      simp only [duquMul, qmul, qmulA, qdot]; ring
    rw [e, ← qnorm_mul_self, ← qnorm_mul_self]
    field_simp
  · obtain ⟨h1, h2⟩ := h
    have : qnorm A.real = 1 := unit_qnorm h1
    rw [duquNorm, this, if_neg one_ne_zero, h2, div_one]

/-- the square of the dual vector norm, as the product of the vector part and its conjugate. -/
def IsVnorm (S : Duqu) (r d : ℝ) : Prop := 0 ≤ r ∧
  duquMul ⟨mkq S.real.vec 0, mkq S.dual.vec 0⟩ (duquConj ⟨mkq S.real.vec 0, mkq S.dual.vec 0⟩) =
    ⟨⟨0, 0, 0, r * r⟩, ⟨0, 0, 0, r * d + d * r⟩⟩

/-- **C111 (vector norm, partial).** When the product of the scalar parts is zero `aa_tf_duqu_vnorm` is the
norm of the vector part; it fails only if the real part of that is zero. -/
theorem C111_vnorm_partial (S : Duqu) : (duquVnorm S = none ↔ S.real.vec = ⟨0, 0, 0⟩) ∧
    (S.real.w * S.dual.w = 0 → ∀ r d, duquVnorm S = some (r, d) → IsVnorm S r d) := by
  refine ⟨?_, fun h r d hr => ?_⟩
  · rw [duquVnorm]
    constructor
    · intro h
      have h0 : vnorm S.real.vec = 0 := by
        by_contra hn; rw [if_neg hn] at h; cases h
      have h1 := vnorm_sq S.real.vec
      rw [h0, zero_mul] at h1
      simp only [vdot, Quat.vec] at h1
      ext <;> simp only [Quat.vec] <;> nlinarith [sq_nonneg S.real.x, sq_nonneg S.real.y, sq_nonneg S.real.z]
    · intro h
      rw [if_pos (by rw [h]; simp [vnorm, vdot])]
  rw [duquVnorm] at hr
  split_ifs at hr with hn
  injection hr with hr; injection hr with h1 h2
  subst h1; subst h2
  refine ⟨vnorm_nonneg _, ?_⟩
  rw [vnorm_sq, mul_div_cancel₀ _ hn, div_mul_cancel₀ _ hn]
  have h' : S.real.w = 0 ∨ S.dual.w = 0 := mul_eq_zero.1 h
  ext <;> simp [duquMul, duquConj, qmul, qmulA, qconj, qdot, mkq, vdot, Quat.vec, h] <;> ring

/-- **C111 is violated by `aa_tf_duqu_vnorm`**: it adds the product of the scalar parts. For the pose
turned by an angle about x and moved along x the dual part comes out as zero. -/
theorem C111_violates_vnorm : ∃ S : Duqu, S.Valid ∧ ∃ r d, duquVnorm S = some (r, d) ∧ ¬ IsVnorm S r d := by
  refine ⟨⟨⟨3 / 5, 0, 0, 4 / 5⟩, ⟨4 / 5, 0, 0, -3 / 5⟩⟩, by norm_num [Duqu.Valid, Unit, qdot], 3 / 5, 0, ?_, ?_⟩
  · have : vnorm (⟨3 / 5, 0, 0⟩ : V3) = 3 / 5 := by
      rw [vnorm, vdot, show (3 / 5 * (3 / 5) + 0 * 0 + 0 * 0 : ℝ) = (3 / 5) ^ 2 by ring, Real.sqrt_sq (by norm_num)]
    simp only [duquVnorm, Quat.vec, this, qdot]
    norm_num
  · rintro ⟨-, h⟩
    have := congrArg (fun S => S.dual.w) h
    norm_num [duquMul, duquConj, qmul, qmulA, qconj, mkq, Quat.vec] at this

/-- **C111 (pure).** Pure dual quaternions and arrays of six convert into each other without loss, and
`aa_tf_duqu_lnv` is the six numbers of `aa_tf_duqu_ln` of a pose, without loss, failing only with it. -/
theorem C111_pure (v : Dx) (S : Duqu) :
    duqu2pure (pure2duqu v) = v ∧ (S.real.w = 0 → S.dual.w = 0 → pure2duqu (duqu2pure S) = S) ∧
    (S.Valid → (duquLnv S).map pure2duqu = duquLn S) := by
  have h2 : ∀ S : Duqu, S.real.w = 0 → S.dual.w = 0 → pure2duqu (duqu2pure S) = S := by
    intro S h1 h2
    ext <;> simp [pure2duqu, duqu2pure, mkq, Quat.vec, h1, h2]
  refine ⟨rfl, h2 S, fun h => ?_⟩
  rw [duquLnv, Option.map_map, duquLn_eq h]
  split_ifs
  · simp only [Option.map_some, Function.comp]
    rw [h2 _ rfl rfl]
  · rfl
  · simp only [Option.map_some, Function.comp]
    rw [h2 _ rfl rfl]

end Verif.Tf
