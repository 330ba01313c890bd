import Verif.Model.Lls
import Verif.Prop.Care

/-!
# C117: least squares and hyperplane fitting

Specification: a solution of least norm of the least squares problem; the hyperplane determined by its
points. Arrays are read as Mathlib matrices (`Care.arr`).
-/

namespace Verif.Lls

open Mat Care Matrix

/-- the sum of the squares of `A x - b`. -/
noncomputable def res {m n : Nat} (A : Matrix (Fin m) (Fin n) ℝ) (b : Fin m → ℝ) (x : Fin n → ℝ) : ℝ :=
  ∑ i, ((A *ᵥ x) i - b i) ^ 2

/-- `x` minimizes `|A x - b|`, and has the least norm of all that do. -/
def MinNormLsq {m n : Nat} (A : Matrix (Fin m) (Fin n) ℝ) (b : Fin m → ℝ) (x : Fin n → ℝ) : Prop :=
  (∀ y, res A b x ≤ res A b y) ∧ ∀ y, res A b y = res A b x → ∑ i, x i ^ 2 ≤ ∑ i, y i ^ 2

/-- column `j` of the array at `a`. -/
def col (r a ld j : Nat) (s : Mem ℝ) : Fin r → ℝ := fun i => s (a + (ld * j + i))

/-- what LAPACK says of `dgelsd` (in exact arithmetic): it overwrites only its arrays and, if `info` is
zero, replaces each right hand side by the solution of least norm. -/
structure GelsdOk (m n p a lda b ldb : Nat) (s : Mem ℝ) (r : Mem ℝ × Int) : Prop where
  frame : ∀ x, (∀ i < m, ∀ j < n, x ≠ a + (lda * j + i)) → (∀ i < max m n, ∀ j < p, x ≠ b + (ldb * j + i)) → r.1 x = s x
  solve : r.2 = 0 → ∀ j < p, MinNormLsq (arr m n a lda s) (col m b ldb j s) (col n b ldb j r.1)

/-- the arrays of the call: leading dimensions are large enough, scratch memory overlaps nothing. -/
structure Layout (m n p A lda b ldb x ldx Ap bp : Nat) : Prop where
  hlda : m ≤ lda
  hldb : m ≤ ldb
  hldx : n ≤ ldx
  AAp : Apart A (lda * n) Ap (m * n)
  Abp : Apart A (lda * n) bp (max m n * p)
  bAp : Apart b (ldb * p) Ap (m * n)
  bbp : Apart b (ldb * p) bp (max m n * p)
  xbp : Apart x (ldx * p) bp (max m n * p)
  ApBp : Apart Ap (m * n) bp (max m n * p)

theorem memZero_frame (p n : Nat) (s : Mem ℝ) (x : Nat) (h : ¬ (p ≤ x ∧ x < p + n)) : memZero p n s x = s x := by
  induction n with
  | zero => simp [memZero, forN]
  | succ n ih =>
    rw [memZero, forN_snoc, store, if_neg (by omega)]
    exact ih (by omega)

theorem copies_spec (m n p A lda b ldb x ldx Ap bp : Nat) (s : Mem ℝ) (hl : Layout m n p A lda b ldb x ldx Ap bp) :
    arr m n Ap m (copies m n p A lda b ldb Ap bp s) = arr m n A lda s ∧
    (∀ j < p, col m bp (max m n) j (copies m n p A lda b ldb Ap bp s) = col m b ldb j s) ∧
    ∀ y, ¬ (Ap ≤ y ∧ y < Ap + m * n) → ¬ (bp ≤ y ∧ y < bp + max m n * p) →
      copies m n p A lda b ldb Ap bp s y = s y := by
  have hA : ∀ i < m, ∀ j < n, A + (lda * j + i) < A + lda * n := fun i hi j hj => by
    have := area (ld := lda) (lt_of_lt_of_le hi hl.hlda) hj; omega
  have hb : ∀ i < m, ∀ j < p, b + (ldb * j + i) < b + ldb * p := fun i hi j hj => by
    have := area (ld := ldb) (lt_of_lt_of_le hi hl.hldb) hj; omega
  have hAp : ∀ i < m, ∀ j < n, Ap + (m * j + i) < Ap + m * n := fun i hi j hj => by
    have := area (ld := m) hi hj; omega
  have hbp : ∀ i < max m n, ∀ j < p, bp + (max m n * j + i) < bp + max m n * p := fun i hi j hj => by
    have := area (ld := max m n) hi hj; omega
  have w1 := lacpy_write m n A lda Ap m le_rfl s (by
    intro i hi j hj i' hi' j' hj'
    exact apart_ne hl.AAp (by simp only [DMat.ref]; omega) (hA i hi j hj) (by simp only [DMat.ref]; omega) (hAp i' hi' j' hj'))
  have f2 := memZero_frame bp (max m n * p) (dup m n A lda Ap s)
  have w3 := lacpy_write m p b ldb bp (max m n) (le_max_left _ _) (memZero bp (max m n * p) (dup m n A lda Ap s)) (by
    intro i hi j hj i' hi' j' hj'
    exact apart_ne hl.bbp (by simp only [DMat.ref]; omega) (hb i hi j hj) (by simp only [DMat.ref]; omega)
      (hbp i' (lt_of_lt_of_le hi' (le_max_left _ _)) j' hj'))
  have out3 : ∀ y, ¬ (bp ≤ y ∧ y < bp + max m n * p) → copies m n p A lda b ldb Ap bp s y = dup m n A lda Ap s y := by
    intro y hy
    refine (w3.2 y (fun i hi j hj e => hy ?_)).trans (f2 y hy)
    have := hbp i (lt_of_lt_of_le hi (le_max_left _ _)) j hj
    simp only [DMat.ref] at e
    omega
  refine ⟨?_, fun j hj => ?_, fun y h1 h2 => ?_⟩
  · ext i j
    have h1 := hAp i i.2 j j.2
    refine (out3 _ ?_).trans (w1.1 i i.2 j j.2)
    rintro ⟨h2, h3⟩
    exact apart_ne hl.ApBp (by omega) h1 h2 h3 rfl
  · funext i
    refine (w3.1 i i.2 j hj).trans ?_
    have h1 := hb i i.2 j hj
    refine (f2 _ ?_).trans (w1.2 _ (fun i' hi' j' hj' e => ?_))
    · rintro ⟨h2, h3⟩
      exact apart_ne hl.bbp (by omega) h1 h2 h3 rfl
    · have h2 := hAp i' hi' j' hj'
      simp only [DMat.ref] at e
      exact apart_ne hl.bAp (by omega) h1 (by omega) h2 e
  · refine (out3 y h2).trans (w1.2 y (fun i hi j hj e => h1 ?_))
    have := hAp i hi j hj
    simp only [DMat.ref] at e
    omega

/-- **C117 (least squares).** For all sizes and leading dimensions, if `aa_la_d_lls` returns zero then each
column of `x` is the solution of least norm for the column of `b`; only the elements of `x` and scratch
memory are written, and the status of LAPACK is returned. -/
theorem C117_lls (g : Gelsd) (m n p A lda b ldb x ldx Ap bp : Nat) (s : Mem ℝ)
    (hl : Layout m n p A lda b ldb x ldx Ap bp)
    (hg : ∀ s1, s1 = copies m n p A lda b ldb Ap bp s → GelsdOk m n p Ap m bp (max m n) s1 (g m n p Ap m bp (max m n) s1)) :
    ∃ s' info, lls g m n p A lda b ldb x ldx Ap bp s = (s', info) ∧
      (info = 0 → ∀ j < p, MinNormLsq (arr m n A lda s) (col m b ldb j s) (col n x ldx j s')) ∧
      ∀ y, (∀ i < n, ∀ j < p, y ≠ x + (ldx * j + i)) → ¬ (Ap ≤ y ∧ y < Ap + m * n) →
        ¬ (bp ≤ y ∧ y < bp + max m n * p) → s' y = s y := by
  refine ⟨_, _, rfl, ?_, ?_⟩
  · intro h0 j hj
    obtain ⟨c1, c2, _⟩ := copies_spec m n p A lda b ldb x ldx Ap bp s hl
    have sol := (hg _ rfl).solve h0 j hj
    rw [c1, c2 j hj] at sol
    generalize hr : (g m n p Ap m bp (max m n) (copies m n p A lda b ldb Ap bp s)).1 = s4 at sol
    have e : col n x ldx j (dlacpy n p bp (max m n) x ldx s4) = col n bp (max m n) j s4 := by
      have w := lacpy_write n p bp (max m n) x ldx hl.hldx s4 (by
        intro i hi j hj i' hi' j' hj'
        have h1 := area (ld := max m n) (i := i) (j := j) (c := p) (lt_of_lt_of_le hi (le_max_right _ _)) hj
        have h2 := area (ld := ldx) (i := i') (j := j') (c := p) (lt_of_lt_of_le hi' hl.hldx) hj'
        simp only [DMat.ref]
        exact fun e => apart_ne hl.xbp (by omega) (by omega) (by omega) (by omega) e.symm)
      funext i
      exact w.1 i i.2 j hj
    rw [e]
    exact sol
  · intro y h1 h2 h3
    have w := lacpy_write n p bp (max m n) x ldx hl.hldx (g m n p Ap m bp (max m n) (copies m n p A lda b ldb Ap bp s)).1 (by
        intro i hi j hj i' hi' j' hj'
        have h1 := area (ld := max m n) (i := i) (j := j) (c := p) (lt_of_lt_of_le hi (le_max_right _ _)) hj
        have h2 := area (ld := ldx) (i := i') (j := j') (c := p) (lt_of_lt_of_le hi' hl.hldx) hj'
        simp only [DMat.ref]
        exact fun e => apart_ne hl.xbp (by omega) (by omega) (by omega) (by omega) e.symm)
    refine (w.2 y (fun i hi j hj => h1 i hi j hj)).trans ?_
    refine ((hg _ rfl).frame y (fun i hi j hj e => h2 ?_) (fun i hi j hj e => h3 ?_)).trans ?_
    · have := area (ld := m) hi hj; omega
    · have := area (ld := max m n) hi hj; omega
    · exact (copies_spec m n p A lda b ldb x ldx Ap bp s hl).2.2 y h2 h3

/-! ## Hyperplanes -/

/-- the arrays of a fit. -/
structure FitLayout (w : Scratch) (m n A lda x : Nat) : Prop where
  inner : Layout n m 1 w.At n w.b n w.xout m w.Ap w.bp
  hlda : m ≤ lda
  AAt : Apart A (lda * n) w.At (n * m)
  Ab : Apart A (lda * n) w.b n
  Atb : Apart w.At (n * m) w.b n
  xx : Apart x (m + 1) w.xout m

theorem nrm2_eq (n a : Nat) (s : Mem ℝ) : nrm2 n a s = √(∑ k : Fin n, s (a + k) ^ 2) := by
  rw [nrm2, forN_sum, zero_add, Finset.sum_range]
  simp only [pow_two]

theorem nrm2_congr (n a : Nat) (s s' : Mem ℝ) (h : ∀ k < n, s (a + k) = s' (a + k)) : nrm2 n a s = nrm2 n a s' := by
  rw [nrm2_eq, nrm2_eq]
  congr 1
  exact Finset.sum_congr rfl (fun k _ => by rw [h k k.2])

theorem normRows_spec (w : Scratch) (m n A lda x : Nat) (s : Mem ℝ) (hl : FitLayout w m n A lda x) :
    (∀ i < n, normRows m n A lda w.At w.b s (w.b + i) = -1 / nrm2 m (A + i * lda) s ∧
      ∀ q < m, normRows m n A lda w.At w.b s (w.At + (n * q + i)) = s (A + i * lda + q) / nrm2 m (A + i * lda) s) ∧
    ∀ y, ¬ (w.At ≤ y ∧ y < w.At + n * m) → ¬ (w.b ≤ y ∧ y < w.b + n) → normRows m n A lda w.At w.b s y = s y := by
  have main : ∀ k ≤ n, (∀ i < k, forN k (fun i s => normRow m n A lda w.At w.b i s) s (w.b + i) = -1 / nrm2 m (A + i * lda) s ∧
      ∀ q < m, forN k (fun i s => normRow m n A lda w.At w.b i s) s (w.At + (n * q + i)) =
        s (A + i * lda + q) / nrm2 m (A + i * lda) s) ∧
      ∀ y, ¬ (w.At ≤ y ∧ y < w.At + n * m) → ¬ (w.b ≤ y ∧ y < w.b + n) →
        forN k (fun i s => normRow m n A lda w.At w.b i s) s y = s y := by
    intro k
    induction k with
    | zero => intro _; exact ⟨fun i hi => absurd hi (Nat.not_lt_zero _), fun y _ _ => by simp [forN]⟩
    | succ k ih =>
      intro hk
      obtain ⟨h1, h2⟩ := ih (by omega)
      rw [forN_snoc]
      generalize forN k (fun i s => normRow m n A lda w.At w.b i s) s = sk at h1 h2 ⊢
      have pA : ∀ q < m, A + k * lda + q < A + lda * n := by
        intro q hq
        have := area (ld := lda) (i := q) (j := k) (c := n) (lt_of_lt_of_le hq hl.hlda) (by omega)
        rw [Nat.mul_comm k lda]; omega
      have cA : ∀ q < m, sk (A + k * lda + q) = s (A + k * lda + q) := by
        intro q hq
        have := pA q hq
        exact h2 _ (fun ⟨a, b⟩ => apart_ne hl.AAt (by omega) this a b rfl) (fun ⟨a, b⟩ => apart_ne hl.Ab (by omega) this a b rfl)
      have cn : nrm2 m (A + k * lda) sk = nrm2 m (A + k * lda) s := nrm2_congr _ _ _ _ cA
      rw [normRow, cn]
      have pAt : ∀ q < m, ∀ i < n, w.At + (i + q * n) < w.At + n * m := by
        intro q hq i hi
        have := area (ld := n) (i := i) (j := q) (c := m) hi hq
        rw [Nat.mul_comm q n]; omega
      have st := forN_store (K := ℝ) m (fun q => w.At + (k + q * n))
        (fun q s' => s' (A + k * lda + q) / nrm2 m (A + k * lda) s)
        (fun a ha b hb e => by
          simp only [Nat.add_left_cancel_iff] at e
          exact Nat.eq_of_mul_eq_mul_right (by omega) e)
        (fun q hq s1 s2 h => by
          rw [h]
          intro l hl' _
          exact apart_ne hl.AAt (by omega) (pA q hq) (by omega) (pAt l hl' k (by omega)))
        (store sk (w.b + k) (-1 / nrm2 m (A + k * lda) s))
      obtain ⟨st1, st2⟩ := st
      have nb : ∀ q < m, ∀ i < n, ∀ j < n, w.b + j ≠ w.At + (i + q * n) := fun q hq i hi j hj e =>
        apart_ne hl.Atb (by omega) (pAt q hq i hi) (by omega) (by omega) e.symm
      refine ⟨fun i hi => ⟨?_, fun q hq => ?_⟩, fun y y1 y2 => ?_⟩
      · rw [st2 _ (fun l hl' => nb l hl' k (by omega) i (by omega))]
        by_cases e : i = k
        · subst e; simp [store]
        · rw [store, if_neg (by omega)]
          exact (h1 i (by omega)).1
      · by_cases e : i = k
        · subst e
          have := st1 q hq
          rw [show w.At + (n * q + i) = w.At + (i + q * n) from by ring]
          refine this.trans ?_
          rw [store, if_neg (fun e => apart_ne hl.Ab (by omega) (pA q hq) (by omega) (by omega) e), cA q hq]
        · rw [st2 _ (fun l hl' e2 => ?_), store, if_neg (fun e2 => ?_)]
          · exact (h1 i (by omega)).2 q hq
          · refine nb q hq i (by omega) k (by omega) ?_
            rw [← e2]; ring
          · have e3 : n * q + i = n * l + k := by
              have : l * n = n * l := Nat.mul_comm _ _
              omega
            have := addr_inj (N := n) (H := 0) (i := i) (i' := k) (j := q) (j' := l) (by omega) (by omega) (by omega)
            exact e this.1
      · rw [st2 _ (fun l hl' e => y1 ?_), store, if_neg (by omega)]
        · exact h2 y y1 y2
        · have := pAt l hl' k (by omega); omega
  exact main n le_rfl

/-- the hyperplane of the points `p` with `normal . p + offset = 0`. -/
def Contains {m : Nat} (normal : Fin m → ℝ) (offset : ℝ) (p : Fin m → ℝ) : Prop := normal ⬝ᵥ p + offset = 0

/-- all columns of the array are on the plane. -/
def AllOn {m : Nat} (n A lda : Nat) (s : Mem ℝ) (normal : Fin m → ℝ) (offset : ℝ) : Prop :=
  ∀ i < n, Contains normal offset (col m A lda i s)

/-- the plane, with unit normal, is the only one containing the points. -/
structure Determined {m : Nat} (n A lda : Nat) (s : Mem ℝ) (normal : Fin m → ℝ) (offset : ℝ) : Prop where
  unit : normal ⬝ᵥ normal = 1
  on : AllOn n A lda s normal offset
  only : ∀ normal' offset', normal' ⬝ᵥ normal' = 1 → AllOn n A lda s normal' offset' →
    (normal' = normal ∧ offset' = offset) ∨ (normal' = -normal ∧ offset' = -offset)

/-- LAPACK solves the least squares problem of the fit. -/
def FitOk (g : Gelsd) (w : Scratch) (m n A lda : Nat) (s : Mem ℝ) : Prop :=
  ∀ s1, s1 = copies n m 1 w.At n w.b n w.Ap w.bp (normRows m n A lda w.At w.b s) →
    GelsdOk n m 1 w.Ap n w.bp (max n m) s1 (g n m 1 w.Ap n w.bp (max n m) s1) ∧
    (g n m 1 w.Ap n w.bp (max n m) s1).2 = 0

/-- the points span the space. -/
theorem span {m n A lda : Nat} {s : Mem ℝ} {normal : Fin m → ℝ} {offset : ℝ} (h : Determined n A lda s normal offset)
    (h0 : offset ≠ 0) (v : Fin m → ℝ) (hv : ∀ i < n, v ⬝ᵥ col m A lda i s = 0) : v = 0 := by
  have on' : ∀ c : ℝ, AllOn n A lda s (c • (normal + v)) (c * offset) := by
    intro c i hi
    have := h.on i hi
    rw [Contains] at this ⊢
    rw [smul_dotProduct, add_dotProduct, hv i hi, add_zero, smul_eq_mul, ← mul_add, this, mul_zero]
  have hn : 0 < n := by
    by_contra hc
    have hc : n = 0 := by omega
    subst hc
    rcases h.only normal (offset + 1) h.unit (fun i hi => absurd hi (Nat.not_lt_zero _)) with ⟨_, e⟩ | ⟨e, _⟩
    · linarith
    · have := h.unit
      have e2 : normal = 0 := by
        funext i
        have := congrFun e i
        simp only [Pi.neg_apply] at this
        simp only [Pi.zero_apply]; linarith
      rw [e2] at this; simp at this
  have hne : normal + v ≠ 0 := by
    intro e
    have h1 := h.on 0 hn
    have h2 := hv 0 hn
    have : v = -normal := by rw [eq_neg_iff_add_eq_zero, add_comm]; exact e
    rw [this, neg_dotProduct, neg_eq_zero] at h2
    rw [Contains, h2, zero_add] at h1
    exact h0 h1
  have hpos : 0 < (normal + v) ⬝ᵥ (normal + v) := by
    refine lt_of_le_of_ne (Finset.sum_nonneg fun i _ => mul_self_nonneg _) (fun e => hne ?_)
    exact dotProduct_self_eq_zero.1 e.symm
  obtain ⟨r, hr, hrr⟩ : ∃ r : ℝ, 0 < r ∧ r * r = (normal + v) ⬝ᵥ (normal + v) := ⟨√_, Real.sqrt_pos.2 hpos, Real.mul_self_sqrt hpos.le⟩
  have hu : (r⁻¹ • (normal + v)) ⬝ᵥ (r⁻¹ • (normal + v)) = 1 := by
    rw [smul_dotProduct, dotProduct_smul, ← hrr]
    simp only [smul_eq_mul]
    field_simp
  rcases h.only _ _ hu (on' r⁻¹) with ⟨e1, e2⟩ | ⟨_, e2⟩
  · have : r⁻¹ = 1 := by
      have : (r⁻¹ - 1) * offset = 0 := by linarith
      rcases mul_eq_zero.1 this with h | h
      · linarith
      · exact absurd h h0
    rw [this, one_smul] at e1
    exact add_eq_left.1 e1
  · exfalso
    have : (r⁻¹ + 1) * offset = 0 := by linarith
    have hp : 0 < r⁻¹ + 1 := by positivity
    rcases mul_eq_zero.1 this with h | h
    · exact absurd h hp.ne'
    · exact h0 h

/-- **C117 (hyperplane, partial: not through the origin).** -/
theorem C117_plane_partial (g : Gelsd) (w : Scratch) (m n A lda x : Nat) (s : Mem ℝ) (hl : FitLayout w m n A lda x)
    (hg : FitOk g w m n A lda s) (normal : Fin m → ℝ) (offset : ℝ) (h : Determined n A lda s normal offset)
    (h0 : offset ≠ 0) :
    ∃ s', colfit g w m n A lda x s = some s' ∧ ∃ c : ℝ, (c = 1 ∨ c = -1) ∧
      (∀ q : Fin m, s' (x + q) = c * normal q) ∧ s' (x + m) = c * offset ∧ 0 < s' (x + m) := by
  have colA : ∀ i q, col m A lda i s q = s (A + i * lda + q) := by
    intro i q; rw [col]; congr 1; ring
  have g0 : ∀ i < n, 0 < nrm2 m (A + i * lda) s := by
    intro i hi
    rw [nrm2_eq]
    refine Real.sqrt_pos.2 (lt_of_le_of_ne (Finset.sum_nonneg fun k _ => sq_nonneg _) (fun e => h0 ?_))
    have h1 := h.on i hi
    have hz : col m A lda i s = 0 := by
      funext q
      have := (Finset.sum_eq_zero_iff_of_nonneg (fun k _ => sq_nonneg _)).1 e.symm q (Finset.mem_univ _)
      rw [colA, pow_eq_zero_iff two_ne_zero] at *
      exact this
    rw [Contains, hz, dotProduct_zero, zero_add] at h1
    exact h1
  obtain ⟨hn1, hn2⟩ := normRows_spec w m n A lda x s hl
  obtain ⟨s2, info, e2, sol, _⟩ := C117_lls g n m 1 w.At n w.b n w.xout m w.Ap w.bp (normRows m n A lda w.At w.b s) hl.inner
    (fun s1 e => (hg s1 e).1)
  have hinfo : info = 0 := by
    have : _ = info := congrArg Prod.snd e2
    rw [← this]; exact (hg _ rfl).2
  have sol := (sol hinfo 0 (by norm_num)).1
  generalize hs1 : normRows m n A lda w.At w.b s = s1 at *
  generalize hx : col m w.xout m 0 s2 = y at sol
  -- rows of the system
  have row : ∀ (v : Fin m → ℝ) (i : Fin n), (arr n m w.At n s1 *ᵥ v) i = (v ⬝ᵥ col m A lda i s) / nrm2 m (A + i * lda) s := by
    intro v i
    simp only [Matrix.mulVec, dotProduct, Finset.sum_div]
    refine Finset.sum_congr rfl (fun q _ => ?_)
    rw [colA]
    show s1 (w.At + (n * q + i)) * v q = _
    rw [(hn1 i i.2).2 q q.2]; ring
  have rhs : ∀ i : Fin n, col n w.b n 0 s1 i = -1 / nrm2 m (A + i * lda) s := by
    intro i
    rw [← (hn1 i i.2).1, col]; congr 1; ring
  have zero : res (arr n m w.At n s1) (col n w.b n 0 s1) (offset⁻¹ • normal) = 0 := by
    refine Finset.sum_eq_zero (fun i _ => ?_)
    have h1 := h.on i i.2
    rw [Contains] at h1
    have h2 : normal ⬝ᵥ col m A lda i s = -offset := by linarith
    rw [row, rhs, smul_dotProduct, h2, smul_eq_mul, mul_neg, inv_mul_cancel₀ h0, sub_self]
    norm_num
  have hy : y = offset⁻¹ • normal := by
    rw [← sub_eq_zero]
    refine span h h0 _ (fun i hi => ?_)
    have h1 := sol (offset⁻¹ • normal)
    rw [zero] at h1
    have h2 := (Finset.sum_eq_zero_iff_of_nonneg (fun k _ => sq_nonneg _)).1
      (le_antisymm h1 (Finset.sum_nonneg fun k _ => sq_nonneg _)) ⟨i, hi⟩ (Finset.mem_univ _)
    rw [pow_eq_zero_iff two_ne_zero, row, rhs, ← sub_div, div_eq_zero_iff] at h2
    have h3 : y ⬝ᵥ col m A lda i s = -1 := by
      rcases h2 with h2 | h2
      · simp only at h2; linarith
      · exact absurd h2 (g0 i hi).ne'
    have h4 := h.on i hi
    rw [Contains] at h4
    have h5 : normal ⬝ᵥ col m A lda i s = -offset := by linarith
    rw [sub_dotProduct, smul_dotProduct, h3, h5, smul_eq_mul, mul_neg, inv_mul_cancel₀ h0, sub_self]
  have hd : nrm2 m w.xout s2 = |offset|⁻¹ := by
    rw [nrm2_eq]
    have : ∀ k : Fin m, s2 (w.xout + k) = offset⁻¹ * normal k := by
      intro k
      have := congrFun hx k
      rw [hy, col] at this
      simp only [Nat.mul_zero, Nat.zero_add, Pi.smul_apply, smul_eq_mul] at this
      exact this
    have e : ∑ k : Fin m, s2 (w.xout + k) ^ 2 = (offset⁻¹) ^ 2 := by
      have hu := h.unit
      rw [dotProduct] at hu
      rw [← mul_one (offset⁻¹ ^ 2), ← hu, Finset.mul_sum]
      exact Finset.sum_congr rfl (fun k _ => by rw [this k]; ring)
    rw [e, Real.sqrt_sq_eq_abs, abs_inv]
  have hd0 : nrm2 m w.xout s2 ≠ 0 := by rw [hd]; exact inv_ne_zero (abs_ne_zero.2 h0)
  have hfit : colfit g w m n A lda x s = hessian m w.xout x s2 := by
    rw [colfit, if_neg (fun ⟨i, hi, e⟩ => (g0 i hi).ne' e), hs1, e2]
  rw [hfit, hessian, if_neg hd0]
  have st := forN_store (K := ℝ) m (fun i => x + i) (fun i s' => s' (w.xout + i) / nrm2 m w.xout s2)
    (fun a _ b _ e => by omega)
    (fun i hi s3 s4 hs => by
      rw [hs]
      intro l hl' _ e
      exact apart_ne hl.xx (x := x + l) (y := w.xout + i) (by omega) (by omega) (by omega) (by omega) e.symm) s2
  refine ⟨_, rfl, if 0 < offset then 1 else -1, by split <;> simp, fun q => ?_, ?_, ?_⟩
  · rw [store, if_neg (by have := q.2; omega), st.1 q q.2, hd]
    have := congrFun hx q
    rw [hy, col] at this
    simp only [Nat.mul_zero, Nat.zero_add, Pi.smul_apply, smul_eq_mul] at this
    rw [this, div_inv_eq_mul]
    split
    · rw [abs_of_pos (by assumption)]; field_simp
    · rw [abs_of_nonpos (by linarith)]; field_simp
  · rw [store, if_pos rfl, hd, one_div, inv_inv]
    split
    · rw [abs_of_pos (by assumption), one_mul]
    · rw [abs_of_nonpos (by linarith), neg_one_mul]
  · rw [store, if_pos rfl, hd, one_div, inv_inv]
    exact abs_pos.2 h0

/-- **C117 (wrappers).** `aa_la_plane_fit` and `aa_la_lls` are the calls with packed arrays. -/
theorem C117_plane_fit_partial (g : Gelsd) (w : Scratch) (m n points plane : Nat) (s : Mem ℝ)
    (hl : FitLayout w m n points m plane) (hg : FitOk g w m n points m s) (normal : Fin m → ℝ) (offset : ℝ)
    (h : Determined n points m s normal offset) (h0 : offset ≠ 0) :
    ∃ s', planeFit g w m n points plane s = some s' ∧ ∃ c : ℝ, (c = 1 ∨ c = -1) ∧
      (∀ q : Fin m, s' (plane + q) = c * normal q) ∧ s' (plane + m) = c * offset ∧ 0 < s' (plane + m) :=
  C117_plane_partial g w m n points m plane s hl hg normal offset h h0

/-- the same for `aa_la_lls`; its caller cannot see `info`. -/
theorem C117_packed (g : Gelsd) (m n p A b x Ap bp : Nat) (s : Mem ℝ) (hl : Layout m n p A m b m x n Ap bp)
    (hg : ∀ s1, s1 = copies m n p A m b m Ap bp s →
      GelsdOk m n p Ap m bp (max m n) s1 (g m n p Ap m bp (max m n) s1) ∧ (g m n p Ap m bp (max m n) s1).2 = 0) :
    ∀ j < p, MinNormLsq (arr m n A m s) (col m b m j s) (col n x n j (llsPacked g m n p A b x Ap bp s)) := by
  obtain ⟨s', info, e, sol, _⟩ := C117_lls g m n p A m b m x n Ap bp s hl (fun s1 h => (hg s1 h).1)
  have hi : info = 0 := by
    have : _ = info := congrArg Prod.snd e
    rw [← this]; exact (hg _ rfl).2
  have : llsPacked g m n p A b x Ap bp s = s' := congrArg Prod.fst e
  rw [this]
  exact sol hi

/-- the offset of the result is always positive. -/
theorem fit_offset (g : Gelsd) (w : Scratch) (m n A lda x : Nat) (s s' : Mem ℝ)
    (h : colfit g w m n A lda x s = some s') : 0 < s' (x + m) := by
  rw [colfit] at h
  split at h
  · cases h
  · rw [hessian] at h
    split at h
    · cases h
    · next hd =>
      cases h
      rw [store, if_pos rfl]
      exact one_div_pos.2 (lt_of_le_of_ne (Real.sqrt_nonneg _) (Ne.symm hd))

/-- **C117 is violated** for a plane through the origin: the points (1,0) and (2,0) determine the line
`y = 0`, but no implementation of LAPACK makes the function return it. -/
theorem C117_violates_origin : ∃ (s : Mem ℝ) (normal : Fin 2 → ℝ), Determined 2 0 2 s normal 0 ∧
    ∀ (g : Gelsd) (w : Scratch) (x : Nat) (s' : Mem ℝ), colfit g w 2 2 0 2 x s = some s' → s' (x + 2) ≠ 0 := by
  refine ⟨fun a => if a = 0 then 1 else if a = 2 then 2 else 0, ![0, 1], ⟨?_, ?_, ?_⟩,
    fun g w x s' h => (fit_offset g w 2 2 0 2 x _ s' h).ne'⟩
  · simp
  · intro i hi
    interval_cases i <;> simp [Contains, col, dotProduct, Fin.sum_univ_two]
  · intro n' o' hu hon
    have h0 := hon 0 (by norm_num)
    have h1 := hon 1 (by norm_num)
    simp [Contains, col, dotProduct, Fin.sum_univ_two] at h0 h1 hu
    have e0 : n' 0 = 0 := by linarith
    have e1 : o' = 0 := by linarith
    rw [e0] at hu
    have : (n' 1 - 1) * (n' 1 + 1) = 0 := by linarith
    rcases mul_eq_zero.1 this with h | h
    · left
      refine ⟨?_, e1⟩
      funext i; fin_cases i
      · simpa using e0
      · simp; linarith
    · right
      refine ⟨?_, by simpa using e1⟩
      funext i; fin_cases i
      · simpa using e0
      · simp; linarith

/-! ## A case meeting the hypotheses -/

/-- the points (1,0) and (0,1). -/
noncomputable def exMem : Mem ℝ := fun a => if a = 0 then 1 else if a = 3 then 1 else 0

def exScratch : Scratch := ⟨10, 20, 30, 40, 50⟩

theorem exLayout : FitLayout exScratch 2 2 0 2 5 := by
  refine ⟨⟨le_rfl, le_rfl, le_rfl, ?_, ?_, ?_, ?_, ?_, ?_⟩, le_rfl, ?_, ?_, ?_, ?_⟩ <;> simp [Apart, exScratch]

theorem exDetermined : Determined (m := 2) 2 0 2 exMem ![1 / √2, 1 / √2] (-(1 / √2)) := by
  have h2 : √(2 : ℝ) * √2 = 2 := Real.mul_self_sqrt (by norm_num)
  have hp : 0 < √(2 : ℝ) := Real.sqrt_pos.2 (by norm_num)
  refine ⟨?_, ?_, ?_⟩
  · simp [dotProduct, Fin.sum_univ_two]
    field_simp
    linarith
  · intro i hi
    interval_cases i <;> simp [Contains, col, exMem, dotProduct, Fin.sum_univ_two]
  · intro n' o' hu hon
    have h0 := hon 0 (by norm_num)
    have h1 := hon 1 (by norm_num)
    simp [Contains, col, exMem, dotProduct, Fin.sum_univ_two] at h0 h1 hu
    have e0 : n' 0 = -o' := by linarith
    have e1 : n' 1 = -o' := by linarith
    rw [e0, e1] at hu
    have : (√2 * o' - 1) * (√2 * o' + 1) = 0 := by nlinarith
    rcases mul_eq_zero.1 this with h | h
    · right
      have ho : o' = 1 / √2 := by field_simp; linarith
      refine ⟨?_, by rw [ho, neg_neg]⟩
      funext i; fin_cases i
      · simp [e0, ho]
      · simp [e1, ho]
    · left
      have ho : o' = -(1 / √2) := by field_simp; linarith
      refine ⟨?_, ho⟩
      funext i; fin_cases i
      · simp [e0, ho]
      · simp [e1, ho]

/-- for the points of the example the right hand side is the solution. -/
theorem exFit : FitOk (fun _ _ _ _ _ _ _ s => (s, 0)) exScratch 2 2 0 2 exMem := by
  intro s1 e
  refine ⟨⟨fun _ _ _ => rfl, fun _ j hj => ?_⟩, rfl⟩
  obtain ⟨c1, c2, _⟩ := copies_spec 2 2 1 exScratch.At 2 exScratch.b 2 exScratch.xout 2 exScratch.Ap exScratch.bp
    (normRows 2 2 0 2 exScratch.At exScratch.b exMem) exLayout.inner
  rw [← e] at c1 c2
  obtain ⟨r1, _⟩ := normRows_spec exScratch 2 2 0 2 5 exMem exLayout
  have n0 : nrm2 2 (0 + 0 * 2) exMem = 1 := by rw [nrm2_eq, Fin.sum_univ_two]; simp [exMem]
  have n1 : nrm2 2 (0 + 1 * 2) exMem = 1 := by rw [nrm2_eq, Fin.sum_univ_two]; simp [exMem]
  have key : arr 2 2 exScratch.Ap 2 s1 = 1 := by
    rw [c1]
    ext i q
    have := (r1 i i.2).2 q q.2
    show normRows 2 2 0 2 exScratch.At exScratch.b exMem (exScratch.At + (2 * q + i)) = _
    rw [this]
    fin_cases i <;> fin_cases q <;> simp only [n0, n1] <;>
      simp [exMem]
  show MinNormLsq (arr 2 2 exScratch.Ap 2 s1) (col 2 exScratch.bp (max 2 2) j s1) (col 2 exScratch.bp (max 2 2) j s1)
  rw [key]
  generalize col 2 exScratch.bp (max 2 2) j s1 = v
  have hz : ∀ y, res (1 : Matrix (Fin 2) (Fin 2) ℝ) v y = ∑ i, (y i - v i) ^ 2 := by
    intro y; simp [res]
  refine ⟨fun y => ?_, fun y hy => ?_⟩
  · rw [hz, hz]
    simp only [sub_self]
    norm_num
    positivity
  · rw [hz, hz] at hy
    simp only [sub_self] at hy
    norm_num at hy
    have h0 : y 0 = v 0 := by nlinarith [sq_nonneg (y 0 - v 0), sq_nonneg (y 1 - v 1)]
    have h1 : y 1 = v 1 := by nlinarith [sq_nonneg (y 0 - v 0), sq_nonneg (y 1 - v 1)]
    simp [h0, h1]

/-- the line `x + y = 1` is found from (1,0) and (0,1). -/
example : ∃ s', colfit (fun _ _ _ _ _ _ _ s => (s, 0)) exScratch 2 2 0 2 5 exMem = some s' ∧
    ∃ c : ℝ, (c = 1 ∨ c = -1) ∧ (∀ q : Fin 2, s' (5 + q) = c * ![1 / √2, 1 / √2] q) ∧
      s' (5 + 2) = c * (-(1 / √2)) ∧ 0 < s' (5 + 2) :=
  C117_plane_partial _ _ 2 2 0 2 5 exMem exLayout exFit _ _ exDetermined
    (neg_ne_zero.2 (one_div_ne_zero (Real.sqrt_pos.2 (by norm_num)).ne'))

end Verif.Lls
