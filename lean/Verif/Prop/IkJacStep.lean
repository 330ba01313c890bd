import Verif.Model.IkJacStep
import Verif.Prop.PinvSvd
import Verif.Prop.Wk

/-!
# C144: joint velocities from workspace velocities

Full statement: `aa_rx_ik_jac_dx2dq` writes only `dq`. `J dq` is the velocity that joints can give
nearest to `dx`, and `dx` itself when the Jacobian has full row rank, with or without a reference
configuration. Without a reference `dq` is the shortest such vector and never longer than
`|dx| / sqrt(s2min)`. With a reference and `dx = 0`, `dq` does not increase the weighted distance
`Σ dq_dt_i (q_i - q_ref_i)² / 2` from it. `aa_rx_ik_jac_x2dq` does so for the velocity of
`aa_rx_wk_dx_pos`.

The code violates it: near a singularity (a singular value below `sqrt(s2min)`) the result is damped,
and the motion towards the reference moves the end effector although none is asked for; a reference
without gains `dq_dt` is read through a null pointer; without joints an array has length zero.
-/

namespace Verif.IkJacStep

open Verif.Mat Verif.La Verif.Pinv Verif.Tf Matrix

/-- Every operand lies before the arrays of the function; `dq` is apart from what is read; the arrays
are apart from one another. -/
structure Lay (o : Parm) (n qa dx j dq as ap nul b : Nat) : Prop where
  hqa : qa + n ≤ as ∧ (qa + n ≤ dq ∨ dq + n ≤ qa)
  hdx : dx + 6 ≤ as ∧ (dx + 6 ≤ dq ∨ dq + n ≤ dx)
  hj : j + 6 * n ≤ as ∧ (j + 6 * n ≤ dq ∨ dq + n ≤ j)
  hdq : dq + n ≤ as
  hqref : ∀ a, o.qref = some a → a + n ≤ as
  hdqdt : ∀ a, o.dqdt = some a → a + n ≤ as
  hnul : as + 6 * n ≤ nul
  hb : nul + n ≤ b
  hap : as ≤ ap

/-- The Jacobian, the wanted velocity and the joint velocity as matrix and vectors. -/
abbrev jac (n j : Nat) (m : Mem ℝ) : Matrix (Fin 6) (Fin n) ℝ := fun i k => m (j + (6 * k.val + i.val))
abbrev vecAt (n a : Nat) (m : Mem ℝ) : Fin n → ℝ := fun i => m (a + i.val)

/-- The singular values that LAPACK gives for the Jacobian. -/
abbrev sing (svd : Svd) (n j ap : Nat) (m : Mem ℝ) : Nat → ℝ :=
  (svd 6 n (svdInput (marr 6 n j) ap m)).2.1

/-- What LAPACK is documented to give for this Jacobian. -/
abbrev SvdOk (svd : Svd) (n j ap : Nat) (m : Mem ℝ) : Prop :=
  IsSvd 6 n (svdInput (marr 6 n j) ap m) (svd 6 n (svdInput (marr 6 n j) ap m))

/-- No singular value lies in the zone that is damped. -/
def Regular (o : Parm) (svd : Svd) (n j ap : Nat) (m : Mem ℝ) : Prop :=
  ∀ l < min 6 n, Real.sqrt o.s2min ≤ sing svd n j ap m l

/-- The pull towards the reference. -/
def pull (n dt qa qr : Nat) (m : Mem ℝ) : Fin n → ℝ :=
  fun i => -(m (dt + i.val)) * (m (qa + i.val) - m (qr + i.val))

theorem vden_arr (n a : Nat) (m : Mem ℝ) : vden (arr n a) m = vecAt n a m := by
  funext i; simp [vden, DVec.ref]

theorem den_jac (n j : Nat) (m : Mem ℝ) : (marr 6 n j).den m = jac n j m := rfl

theorem step_spec (svd : Svd) (o : Parm) (h0 : 0 < o.s2min) (n qa dx j dq as ap nul b : Nat) (hn : n ≠ 0)
    (m : Mem ℝ) (L : Lay o n qa dx j dq as ap nul b) (hs : SvdOk svd n j ap m) :
    ∃ X : Matrix (Fin n) (Fin 6) ℝ,
      DeadzoneSpec (Real.sqrt o.s2min) (sing svd n j ap m) (jac n j m) X ∧
      (o.qref = none → ∃ m', dx2dq svd o n qa dx j dq as ap nul b m = some m' ∧
        vecAt n dq m' = X *ᵥ vecAt 6 dx m ∧ ∀ c < as, c < dq ∨ dq + n ≤ c → m' c = m c) ∧
      (∀ qr dt, o.qref = some qr → o.dqdt = some dt →
        ∃ m', dx2dq svd o n qa dx j dq as ap nul b m = some m' ∧
        vecAt n dq m' = X *ᵥ vecAt 6 dx m - (X * jac n j m - 1) *ᵥ pull n dt qa qr m ∧
        ∀ c < as, c < dq ∨ dq + n ≤ c → m' c = m c) := by
  have hj := L.hj
  have hap := L.hap
  obtain ⟨hz, f1⟩ := C37_dzdpinv_arr svd o.s2min h0 6 n j as ap m (Or.inl (by omega)) hs
  set m1 := dzdpinvArr svd 6 n o.s2min j as ap m with hm1
  have lo : ∀ c < as, m1 c = m c := fun c hc => f1 c (Or.inl hc)
  refine ⟨(marr n 6 as).den m1, hz, fun hq => ?_, fun qr dt hq hd => ?_⟩
  · have hdx := L.hdx
    have hdq := L.hdq
    have w := (C36_matrix (K := ℝ) 0 as m1).2.2 n 6 dx dq (Or.inr (by omega)) hdx.2
    refine ⟨mvmul n 6 as dx dq m1, by simp only [dx2dq, if_neg hn, hq, hm1], ?_, ?_⟩
    · funext i
      have e := w.1 i i.2
      simp only [DVec.ref, mul_one] at e
      rw [vecAt, e, Finset.sum_range, Matrix.mulVec, dotProduct]
      refine Finset.sum_congr rfl (fun k _ => ?_)
      have hk := k.2
      rw [lo (dx + k.val) (by omega)]
      rfl
    · intro c hc hd
      rw [w.2 c (fun l hl e => by simp only [DVec.ref, mul_one] at e; simp only at hl; omega), lo c hc]
  · have hdx := L.hdx
    have hdq := L.hdq
    have hqa := L.hqa
    have hqr := L.hqref qr hq
    have hdt := L.hdqdt dt hd
    have hnul := L.hnul
    have hb := L.hb
    have hz2 := elem (K := ℝ) n nul (fun i m => -(m (dt + i)) * (m (qa + i) - m (qr + i)))
      (fun k hk m m' h => by
        rw [h (dt + k) (fun l hl _ => by omega), h (qa + k) (fun l hl _ => by omega),
          h (qr + k) (fun l hl _ => by omega)]) m1
    have e2 : dqNull n dt qa qr nul m1 = forN n (fun i m => store m (nul + i)
      (-(m (dt + i)) * (m (qa + i) - m (qr + i)))) m1 := rfl
    rw [← e2] at hz2
    set m2 := dqNull n dt qa qr nul m1 with hm2
    have lo2 : ∀ c < nul, m2 c = m1 c := fun c hc => hz2.2 c (fun l hl e => by
      simp only [DVec.ref, mul_one] at e; simp only at hl; omega)
    have w := C37_xlsnp 6 n j as dx nul dq b m2 ⟨hj.2, Or.inl (by omega)⟩
      ⟨Or.inr (by omega), Or.inl (by omega)⟩ hdx.2 ⟨Or.inr (by omega), Or.inl (by omega)⟩
      (Or.inl (by omega))
    refine ⟨xlsnp 6 n j as dx nul dq b m2, by simp only [dx2dq, if_neg hn, hq, hd, hm1, hm2], ?_, ?_⟩
    · have v := w.1
      rw [vden_arr, vden_arr, vden_arr] at v
      have eX : (marr n 6 as).den m2 = (marr n 6 as).den m1 := den_congr (fun i hi k hk => lo2 _ (by
        have := marr_in (a := as) (rows := n) (cols := 6) hi hk; omega))
      have eJ : (marr 6 n j).den m2 = jac n j m := by
        rw [← den_jac]
        exact den_congr (fun i hi k hk => by
          have := marr_in (a := j) (rows := 6) (cols := n) hi hk
          rw [lo2 _ (by omega), lo _ (by omega)])
      have ex : vecAt 6 dx m2 = vecAt 6 dx m := by
        funext k
        have hk := k.2
        simp only [vecAt]
        rw [lo2 _ (by omega), lo _ (by omega)]
      have ep : vecAt n nul m2 = pull n dt qa qr m := by
        funext k
        have hk := k.2
        have e := hz2.1 k k.2
        simp only [DVec.ref, mul_one] at e
        simp only [vecAt, pull]
        rw [e, lo _ (by omega), lo _ (by omega), lo _ (by omega)]
      rw [eX, eJ, ex, ep] at v
      exact v
    · intro c hc hd
      rw [w.2.1 c hd (Or.inl (by omega)), lo2 c (by omega), lo c hc]

/-- **C144 (only `dq` is written).** Of what lies before the arrays of the function, only `dq` changes;
the call succeeds unless there are no joints or a reference without gains. -/
theorem C144_writes_partial (svd : Svd) (o : Parm) (h0 : 0 < o.s2min) (n qa dx j dq as ap nul b : Nat)
    (hn : n ≠ 0) (m : Mem ℝ) (L : Lay o n qa dx j dq as ap nul b) (hs : SvdOk svd n j ap m)
    (hd : o.qref ≠ none → o.dqdt ≠ none) :
    ∃ m', dx2dq svd o n qa dx j dq as ap nul b m = some m' ∧
      ∀ c < as, c < dq ∨ dq + n ≤ c → m' c = m c := by
  obtain ⟨X, -, h1, h2⟩ := step_spec svd o h0 n qa dx j dq as ap nul b hn m L hs
  cases hq : o.qref with
  | none => obtain ⟨m', e, -, f⟩ := h1 hq; exact ⟨m', e, f⟩
  | some qr =>
      obtain ⟨dt, hdt⟩ := Option.ne_none_iff_exists'.mp (hd (by simp [hq]))
      obtain ⟨m', e, -, f⟩ := h2 qr dt hq hdt
      exact ⟨m', e, f⟩

/-- away from singularities `J dq` is the projection of `dx`, whatever the pull. -/
theorem step_proj (svd : Svd) (o : Parm) (h0 : 0 < o.s2min) (n qa dx j dq as ap nul b : Nat) (m m' : Mem ℝ)
    (L : Lay o n qa dx j dq as ap nul b) (hs : SvdOk svd n j ap m) (hr : Regular o svd n j ap m)
    (h : dx2dq svd o n qa dx j dq as ap nul b m = some m') :
    ∃ X, Penrose (jac n j m) X ∧ jac n j m *ᵥ vecAt n dq m' = (jac n j m * X) *ᵥ vecAt 6 dx m ∧
      (o.qref = none → vecAt n dq m' = X *ᵥ vecAt 6 dx m) ∧
      (∀ qr dt, o.qref = some qr → o.dqdt = some dt →
        vecAt n dq m' = X *ᵥ vecAt 6 dx m - (X * jac n j m - 1) *ᵥ pull n dt qa qr m) := by
  have hn : n ≠ 0 := by
    rintro rfl
    simp [dx2dq] at h
  obtain ⟨X, hz, h1, h2⟩ := step_spec svd o h0 n qa dx j dq as ap nul b hn m L hs
  have P := hz.2 hr
  refine ⟨X, P, ?_, ?_, ?_⟩
  · cases hq : o.qref with
    | none =>
        obtain ⟨m'', e, v, -⟩ := h1 hq
        obtain rfl : m'' = m' := Option.some.inj (e.symm.trans h)
        rw [v, Matrix.mulVec_mulVec]
    | some qr =>
        cases hd : o.dqdt with
        | none => simp [dx2dq, hn, hq, hd] at h
        | some dt =>
            obtain ⟨m'', e, v, -⟩ := h2 qr dt hq hd
            obtain rfl : m'' = m' := Option.some.inj (e.symm.trans h)
            rw [v, Matrix.mulVec_sub, Matrix.mulVec_mulVec, Matrix.mulVec_mulVec, Matrix.mul_sub,
              ← Matrix.mul_assoc, P.axa, Matrix.mul_one, sub_self, Matrix.zero_mulVec, sub_zero]
  · intro hq
    obtain ⟨m'', e, v, -⟩ := h1 hq
    obtain rfl : m'' = m' := Option.some.inj (e.symm.trans h)
    exact v
  · intro qr dt hq hd
    obtain ⟨m'', e, v, -⟩ := h2 qr dt hq hd
    obtain rfl : m'' = m' := Option.some.inj (e.symm.trans h)
    exact v

/-- **C144 (tracking).** Away from singularities and with a Jacobian of full row rank, `J dq = dx`,
whatever the reference. -/
theorem C144_tracks_partial (svd : Svd) (o : Parm) (h0 : 0 < o.s2min) (n qa dx j dq as ap nul b : Nat)
    (m m' : Mem ℝ) (L : Lay o n qa dx j dq as ap nul b) (hs : SvdOk svd n j ap m)
    (hr : Regular o svd n j ap m) (hf : ∃ R : Matrix (Fin n) (Fin 6) ℝ, jac n j m * R = 1)
    (h : dx2dq svd o n qa dx j dq as ap nul b m = some m') :
    jac n j m *ᵥ vecAt n dq m' = vecAt 6 dx m := by
  obtain ⟨X, P, e, -⟩ := step_proj svd o h0 n qa dx j dq as ap nul b m m' L hs hr h
  obtain ⟨R, hR⟩ := hf
  have : jac n j m * X = 1 := by
    calc jac n j m * X = jac n j m * X * (jac n j m * R) := by rw [hR, Matrix.mul_one]
      _ = jac n j m * X * jac n j m * R := by rw [Matrix.mul_assoc _ _ R]
      _ = 1 := by rw [P.axa, hR]
  rw [e, this, Matrix.one_mulVec]

/-- **C144 (nearest).** Away from singularities no joint velocity comes nearer to `dx`, whatever the
reference and the rank. -/
theorem C144_nearest_partial (svd : Svd) (o : Parm) (h0 : 0 < o.s2min) (n qa dx j dq as ap nul b : Nat)
    (m m' : Mem ℝ) (L : Lay o n qa dx j dq as ap nul b) (hs : SvdOk svd n j ap m)
    (hr : Regular o svd n j ap m) (h : dx2dq svd o n qa dx j dq as ap nul b m = some m')
    (y : Fin n → ℝ) :
    (vecAt 6 dx m - jac n j m *ᵥ vecAt n dq m') ⬝ᵥ (vecAt 6 dx m - jac n j m *ᵥ vecAt n dq m') ≤
      (vecAt 6 dx m - jac n j m *ᵥ y) ⬝ᵥ (vecAt 6 dx m - jac n j m *ᵥ y) := by
  obtain ⟨X, P, e, -⟩ := step_proj svd o h0 n qa dx j dq as ap nul b m m' L hs hr h
  rw [e]
  set A := jac n j m
  set x := vecAt 6 dx m
  set Q := A * X with hQ
  have hQt : Qᵀ = Q := P.ax
  have hQA : Q * A = A := P.axa
  have hQQ : Q * Q = Q := by rw [hQ, ← Matrix.mul_assoc, P.axa]
  -- the residual is orthogonal to the columns
  set r := x - Q *ᵥ x with hrr
  set d := Q *ᵥ x - A *ᵥ y with hd
  have e1 : x - A *ᵥ y = r + d := by rw [hrr, hd]; abel
  have hQd : Q *ᵥ d = d := by
    rw [hd, Matrix.mulVec_sub, Matrix.mulVec_mulVec, Matrix.mulVec_mulVec, hQQ, hQA]
  have hQr : Q *ᵥ r = 0 := by
    rw [hrr, Matrix.mulVec_sub, Matrix.mulVec_mulVec, hQQ, sub_self]
  have o1 : r ⬝ᵥ d = 0 := by
    rw [← hQd, Matrix.dotProduct_mulVec, ← Matrix.mulVec_transpose, hQt, hQr, zero_dotProduct]
  have h2 : 0 ≤ d ⬝ᵥ d := Finset.sum_nonneg (fun i _ => mul_self_nonneg _)
  rw [e1, add_dotProduct, dotProduct_add, dotProduct_add, o1, dotProduct_comm d r, o1]
  linarith

/-- **C144 (shortest).** Away from singularities and without a reference, no shorter joint velocity has
the same effect. -/
theorem C144_shortest_partial (svd : Svd) (o : Parm) (h0 : 0 < o.s2min) (n qa dx j dq as ap nul b : Nat)
    (m m' : Mem ℝ) (L : Lay o n qa dx j dq as ap nul b) (hs : SvdOk svd n j ap m)
    (hr : Regular o svd n j ap m) (hq : o.qref = none)
    (h : dx2dq svd o n qa dx j dq as ap nul b m = some m') (y : Fin n → ℝ)
    (hy : jac n j m *ᵥ y = jac n j m *ᵥ vecAt n dq m') :
    vecAt n dq m' ⬝ᵥ vecAt n dq m' ≤ y ⬝ᵥ y := by
  obtain ⟨X, P, -, e, -⟩ := step_proj svd o h0 n qa dx j dq as ap nul b m m' L hs hr h
  have e := e hq
  set A := jac n j m
  set v := vecAt n dq m'
  set N := X * A with hN
  have hNt : Nᵀ = N := P.xa
  have hNv : N *ᵥ v = v := by rw [e, Matrix.mulVec_mulVec, P.xax]
  set d := y - v with hd
  have hNd : N *ᵥ d = 0 := by
    rw [hN, ← Matrix.mulVec_mulVec, hd, Matrix.mulVec_sub, hy, sub_self, Matrix.mulVec_zero]
  have e1 : y = v + d := by rw [hd]; abel
  have o1 : d ⬝ᵥ v = 0 := by
    rw [← hNv, Matrix.dotProduct_mulVec, ← Matrix.mulVec_transpose, hNt, hNd, zero_dotProduct]
  have h2 : 0 ≤ d ⬝ᵥ d := Finset.sum_nonneg (fun i _ => mul_self_nonneg _)
  rw [e1, add_dotProduct, dotProduct_add, dotProduct_add, o1, dotProduct_comm v d, o1]
  linarith

/-- **C144 (bounded).** Without a reference the joint velocity is never longer than
`|dx| / sqrt(s2min)`, at singularities too. -/
theorem C144_bounded (svd : Svd) (o : Parm) (h0 : 0 < o.s2min) (n qa dx j dq as ap nul b : Nat)
    (m m' : Mem ℝ) (L : Lay o n qa dx j dq as ap nul b) (hs : SvdOk svd n j ap m) (hq : o.qref = none)
    (h : dx2dq svd o n qa dx j dq as ap nul b m = some m') :
    vecAt n dq m' ⬝ᵥ vecAt n dq m' ≤ (vecAt 6 dx m ⬝ᵥ vecAt 6 dx m) / o.s2min := by
  have hn : n ≠ 0 := by
    rintro rfl
    simp [dx2dq] at h
  obtain ⟨X, hz, h1, -⟩ := step_spec svd o h0 n qa dx j dq as ap nul b hn m L hs
  obtain ⟨m'', e, v, -⟩ := h1 hq
  obtain rfl : m'' = m' := Option.some.inj (e.symm.trans h)
  rw [v]
  have := hz.1 (vecAt 6 dx m)
  rwa [Real.mul_self_sqrt h0.le, one_div, inv_mul_eq_div] at this

/-- **C144 (towards the reference).** Away from singularities and with `dx = 0`, the weighted distance
from the reference does not increase along `dq`, and the end effector stays. -/
theorem C144_descends_partial (svd : Svd) (o : Parm) (h0 : 0 < o.s2min) (n qa dx j dq as ap nul b : Nat)
    (m m' : Mem ℝ) (L : Lay o n qa dx j dq as ap nul b) (hs : SvdOk svd n j ap m)
    (hr : Regular o svd n j ap m) (qr dt : Nat) (hq : o.qref = some qr) (hd : o.dqdt = some dt)
    (hx : vecAt 6 dx m = 0) (h : dx2dq svd o n qa dx j dq as ap nul b m = some m') :
    ∑ i : Fin n, m (dt + i) * (m (qa + i) - m (qr + i)) * m' (dq + i) ≤ 0 ∧
    jac n j m *ᵥ vecAt n dq m' = 0 := by
  obtain ⟨X, P, e1, -, e⟩ := step_proj svd o h0 n qa dx j dq as ap nul b m m' L hs hr h
  have e := e qr dt hq hd
  rw [hx, Matrix.mulVec_zero, zero_sub] at e
  refine ⟨?_, by rw [e1, hx, Matrix.mulVec_zero]⟩
  set A := jac n j m
  set u := pull n dt qa qr m with hu
  set N := 1 - X * A with hN
  have ev : vecAt n dq m' = N *ᵥ u := by
    rw [e, ← Matrix.neg_mulVec, hN, neg_sub]
  have hNt : Nᵀ = N := by rw [hN, Matrix.transpose_sub, Matrix.transpose_one, P.xa]
  have hXA : X * A * (X * A) = X * A := by rw [← Matrix.mul_assoc, P.xax]
  have hNN : N * N = N := by
    rw [hN, Matrix.mul_sub, Matrix.mul_one, Matrix.sub_mul, Matrix.one_mul, hXA, sub_self, sub_zero]
  have e3 : ∑ i : Fin n, m (dt + i) * (m (qa + i) - m (qr + i)) * m' (dq + i) =
      -(u ⬝ᵥ vecAt n dq m') := by
    rw [dotProduct, ← Finset.sum_neg_distrib]
    refine Finset.sum_congr rfl (fun i _ => ?_)
    simp only [hu, pull]
    ring
  have e4 : u ⬝ᵥ (N *ᵥ u) = (N *ᵥ u) ⬝ᵥ (N *ᵥ u) := by
    conv_lhs => rw [← hNN, ← Matrix.mulVec_mulVec, Matrix.dotProduct_mulVec, ← Matrix.mulVec_transpose,
      hNt]
  rw [e3, ev, e4]
  have h2 : 0 ≤ (N *ᵥ u) ⬝ᵥ (N *ᵥ u) := Finset.sum_nonneg (fun i _ => mul_self_nonneg _)
  linarith

/-- A velocity as a vector. -/
def dxVec (d : Dx) : Fin 6 → ℝ := ![d.v.x, d.v.y, d.v.z, d.w.x, d.w.y, d.w.z]

theorem storeDx_spec (w : Nat) (d : Dx) (m : Mem ℝ) :
    vecAt 6 w (storeDx w d m) = dxVec d ∧ ∀ c, c < w ∨ w + 6 ≤ c → storeDx w d m c = m c := by
  have hz := elem (K := ℝ) 6 w (fun i _ => (match i with
      | 0 => d.v.x | 1 => d.v.y | 2 => d.v.z | 3 => d.w.x | 4 => d.w.y | _ => d.w.z))
    (fun _ _ _ _ _ => rfl) m
  constructor
  · funext i
    have := hz.1 i i.2
    simp only [DVec.ref, mul_one] at this
    refine this.trans ?_
    fin_cases i <;> rfl
  · intro c hc
    exact hz.2 c (fun l hl e => by simp only [DVec.ref, mul_one] at e; simp only at hl; omega)

/-- **C144 (`aa_rx_ik_jac_x2dq`).** Away from singularities, with a Jacobian of full row rank and
valid poses, the end effector moves with the velocity of `aa_rx_wk_dx_pos` (of which C74 says that it
leads to the reference pose), and only `dq` changes of what lies before the vector `w_e`. -/
theorem C144_x2dq_partial (svd : Svd) (o : Parm) (h0 : 0 < o.s2min) (n qa : Nat) (act ref : Qutr)
    (ha : act.Valid) (hr : ref.Valid) (dxr : Option Dx) (j dq w as ap nul b : Nat) (hn : n ≠ 0) (m : Mem ℝ)
    (L : Lay o n qa w j dq as ap nul b) (hw : qa + n ≤ w ∧ j + 6 * n ≤ w ∧ dq + n ≤ w)
    (hd : o.qref ≠ none → o.dqdt ≠ none)
    (hs : ∀ d, Wk.dxPos o.gt o.ga act ref (dxr.getD ⟨⟨0, 0, 0⟩, ⟨0, 0, 0⟩⟩) = some d →
      SvdOk svd n j ap (storeDx w d m) ∧ Regular o svd n j ap (storeDx w d m)) (hf : ∃ R : Matrix (Fin n) (Fin 6) ℝ, jac n j m * R = 1) :
    ∃ d m', Wk.dxPos o.gt o.ga act ref (dxr.getD ⟨⟨0, 0, 0⟩, ⟨0, 0, 0⟩⟩) = some d ∧
      x2dq svd o n qa act ref dxr j dq w as ap nul b m = some m' ∧
      jac n j m *ᵥ vecAt n dq m' = dxVec d ∧
      ∀ c < w, c < dq ∨ dq + n ≤ c → m' c = m c := by
  obtain ⟨r, hd1⟩ := Wk.C74_adds o.gt o.ga act ref ha hr
  have hd1 := hd1 (dxr.getD ⟨⟨0, 0, 0⟩, ⟨0, 0, 0⟩⟩)
  set d : Dx := ⟨vadd (dxr.getD ⟨⟨0, 0, 0⟩, ⟨0, 0, 0⟩⟩).v r.v, vadd (dxr.getD ⟨⟨0, 0, 0⟩, ⟨0, 0, 0⟩⟩).w r.w⟩
  obtain ⟨v1, f1⟩ := storeDx_spec w d m
  set m1 := storeDx w d m with hm1
  have hJ : jac n j m1 = jac n j m := by
    funext i k
    have h1 := i.2
    have h2 := k.2
    exact f1 _ (Or.inl (by omega))
  obtain ⟨m', e, f⟩ := C144_writes_partial svd o h0 n qa w j dq as ap nul b hn m1 L (hs d hd1).1 hd
  have t := C144_tracks_partial svd o h0 n qa w j dq as ap nul b m1 m' L (hs d hd1).1 (hs d hd1).2
    (by rw [hJ]; exact hf) e
  refine ⟨d, m', hd1, by rw [x2dq, hd1, Option.bind_some]; exact e, ?_, ?_⟩
  · rw [← v1, ← t, hJ]
  · intro c hc hcd
    have := L.hdx
    rw [f c (by omega) hcd, f1 c (Or.inl hc)]

/-- VIOLATION. A reference without gains is read through a null pointer. -/
theorem C144_no_gain_violates (svd : Svd) (o : Parm) (qr : Nat) (h : o.qref = some qr)
    (hd : o.dqdt = none) (n qa dx j dq as ap nul b : Nat) (m : Mem ℝ) :
    dx2dq svd o n qa dx j dq as ap nul b m = none := by
  rw [dx2dq]
  split_ifs
  · rfl
  · simp only [h, hd]

/-- VIOLATION. Without joints there is no result. -/
theorem C144_no_joints_violates (svd : Svd) (o : Parm) (qa dx j dq as ap nul b : Nat) (m : Mem ℝ) :
    dx2dq svd o 0 qa dx j dq as ap nul b m = none := by simp [dx2dq]

/-! ## A joint, near a singularity or not -/

/-- The decomposition of the matrix with ones on its diagonal and zeros elsewhere. -/
def svdI : Svd := fun _ _ _ => (fun i l => if i = l then 1 else 0, fun _ => 1,
  fun l k => if l = k then 1 else 0)

/-- One joint whose Jacobian is `(1, 0, 0, 0, 0, 0)`, at 1; the reference is 0, the gain 1 and no
velocity is wanted. -/
def memOne : Mem ℝ := fun c => if c = 0 ∨ c = 6 ∨ c = 8 then 1 else 0

theorem one_ok : SvdOk svdI 1 0 30 memOne := by
  have e : ∀ i < 6, svdInput (marr 6 1 0) 30 memOne i 0 = if i = 0 then 1 else 0 := by
    intro i hi
    rw [svdInput_eq (marr 6 1 0) 30 memOne rfl (fun i hi j hj => by
      simp only [DMat.ref] at hi hj ⊢; left; omega) i hi 0 Nat.one_pos]
    simp only [DMat.ref, memOne]
    congr 1
    simp only [eq_iff_iff]
    omega
  have h1 : min 6 1 = 1 := rfl
  refine ⟨fun l hl l' hl' => ?_, fun l hl l' hl' => ?_, fun i hi k hk => ?_, fun l hl => ?_,
    fun l l' hl hl' => ?_⟩
  · obtain rfl : l = 0 := by omega
    obtain rfl : l' = 0 := by omega
    simp [svdI]
  · obtain rfl : l = 0 := by omega
    obtain rfl : l' = 0 := by omega
    simp [svdI]
  · obtain rfl : k = 0 := by omega
    rw [e i hi]
    simp [svdI]
  · simp [svdI]
  · simp [svdI]

theorem one_lay (o : Parm) (hq : o.qref = some 7) (hd : o.dqdt = some 8) :
    Lay o 1 6 9 0 15 16 30 22 23 := by
  constructor
  all_goals first
    | omega
    | (intro a ha; rw [hq] at ha; cases ha; omega)
    | (intro a ha; rw [hd] at ha; cases ha; omega)

/-- The hypotheses of the theorems hold for the joint with `s2min = 1`. -/
example : ∃ o : Parm, 0 < o.s2min ∧ Lay o 1 6 9 0 15 16 30 22 23 ∧ SvdOk svdI 1 0 30 memOne ∧
    Regular o svdI 1 0 30 memOne ∧ vecAt 6 9 memOne = 0 :=
  ⟨⟨1, 1, 1, some 7, some 8⟩, one_pos, one_lay _ rfl rfl, one_ok, fun l _ => by simp [sing, svdI], by
    funext i
    have := i.2
    simp only [vecAt, memOne, Pi.zero_apply]
    rw [if_neg (by omega)]⟩

/-- Six joints whose Jacobian, at 0, is the identity. -/
def memSix : Mem ℝ := fun c => if c < 36 ∧ c % 7 = 0 then 1 else 0

theorem six_ok : SvdOk svdI 6 0 200 memSix := by
  refine ⟨fun l hl l' hl' => ?_, fun l hl l' hl' => ?_, fun i hi k hk => ?_, fun l hl => ?_,
    fun l l' hl hl' => ?_⟩
  · simp only [svdI]
    rw [Finset.sum_eq_single ⟨l, by omega⟩]
    · simp
    · intro b _ hb
      have : b.val ≠ l := fun e => hb (Fin.ext e)
      simp [this]
    · simp
  · simp only [svdI]
    rw [Finset.sum_eq_single ⟨l, by omega⟩]
    · simp [eq_comm]
    · intro b _ hb
      have : l ≠ b.val := fun e => hb (Fin.ext e.symm)
      simp [this]
    · simp
  · rw [svdInput_eq (marr 6 6 0) 200 memSix rfl (fun i hi j hj => by
      simp only [DMat.ref] at hi hj ⊢; left; omega) i hi k hk]
    simp only [svdI, DMat.ref, memSix]
    rw [Finset.sum_eq_single ⟨i, by omega⟩]
    · simp only [if_true, one_mul]
      congr 1
      simp only [eq_iff_iff]
      omega
    · intro b _ hb
      have : i ≠ b.val := fun e => hb (Fin.ext e.symm)
      simp [this]
    · simp
  · simp [svdI]
  · simp [svdI]

/-- The hypotheses of `C144_tracks_partial` hold for the six joints, the wanted velocity at 36, the
configuration at 42 and `dq` at 48. -/
example : ∃ o : Parm, 0 < o.s2min ∧ Lay o 6 42 36 0 48 54 200 90 96 ∧ SvdOk svdI 6 0 200 memSix ∧
    Regular o svdI 6 0 200 memSix ∧ ∃ R : Matrix (Fin 6) (Fin 6) ℝ, jac 6 0 memSix * R = 1 := by
  refine ⟨⟨1, 1, 1, none, none⟩, one_pos, ?_, six_ok, fun l _ => by simp [sing, svdI], 1, ?_⟩
  · constructor
    all_goals first
      | omega
      | (intro a ha; exact absurd ha (by simp))
  · rw [Matrix.mul_one]
    funext i k
    rw [Matrix.one_apply]
    have h1 := i.2
    have h2 := k.2
    simp only [jac, memSix]
    congr 1
    simp only [eq_iff_iff, Fin.ext_iff]
    omega

/-- VIOLATION. With `s2min = 4` the singular value of the joint is damped: no velocity is wanted, but
the motion towards the reference moves the end effector with three quarters of its speed. -/
theorem C144_leak_violates : ∃ m', dx2dq svdI ⟨4, 1, 1, some 7, some 8⟩ 1 6 9 0 15 16 30 22 23 memOne = some m' ∧
    vecAt 6 9 memOne = 0 ∧ (jac 1 0 memOne *ᵥ vecAt 1 15 m') 0 = -(3 / 4) := by
  have hx : vecAt 6 9 memOne = 0 := by
    funext i
    have := i.2
    simp only [vecAt, memOne, Pi.zero_apply]
    rw [if_neg (by omega)]
  refine ⟨xlsnp 6 1 0 16 9 22 15 23 (dqNull 1 8 6 7 22 (dzdpinvArr svdI 6 1 4 0 16 30 memOne)),
    by simp only [dx2dq, if_neg Nat.one_ne_zero], hx, ?_⟩
  set m1 := dzdpinvArr svdI 6 1 4 0 16 30 memOne with hm1
  have w := dgerSum_spec 6 1 (fun i => (1 : ℝ) / max (1 * 1) 4) (fun i l => if i = l then 1 else 0)
    (fun l k => if l = k then 1 else 0) 16 1 (forN (6 * 1) (fun i m => store m (16 + i) 0) memOne)
  have em : m1 = forN 1 (fun i m => dger 1 6 ((1 : ℝ) / max (1 * 1) 4)
      (fun a => if i = a then 1 else 0) (fun b => if b = i then 1 else 0) 16 1 m)
      (forN (6 * 1) (fun i m => store m (16 + i) 0) memOne) := rfl
  rw [← em] at w
  have hz := elem (K := ℝ) (6 * 1) 16 (fun _ _ => 0) (fun _ _ _ _ _ => rfl) memOne
  have hm : max ((1 : ℝ) * 1) 4 = 4 := by norm_num
  let X6 : Matrix (Fin 1) (Fin 6) ℝ := Matrix.of fun _ k => if k = 0 then 1 / 4 else 0
  let J6 : Matrix (Fin 6) (Fin 1) ℝ := Matrix.of fun i _ => if i = 0 then 1 else 0
  have eX : (marr 1 6 16).den m1 = X6 := by
    funext i k
    have hi : i.val = 0 := by have : i.val < 1 := i.2; omega
    have hk : k.val < 6 := k.2
    have e1 := w.1 0 Nat.one_pos k k.2
    have e2 := hz.1 k k.2
    simp only [DVec.ref, DMat.ref, mul_one, one_mul, Nat.add_zero] at e1 e2
    show m1 (16 + (1 * k.val + i.val)) = _
    rw [hi, one_mul, Nat.add_zero, e1, e2]
    simp only [Finset.sum_range_one]
    show _ = if k = 0 then (1 / 4 : ℝ) else 0
    by_cases h : k = 0
    · subst h; norm_num
    · have : k.val ≠ 0 := fun e => h (Fin.ext e)
      simp [h, this]
  have f1 : ∀ c, c < 16 ∨ 22 ≤ c → m1 c = memOne c := by
    intro c hc
    rw [w.2 c (fun i hi k hk e => by simp only [DMat.ref] at e; simp only at hi hk; omega)]
    exact hz.2 c (fun l hl e => by simp only [DVec.ref] at e; simp only at hl; omega)
  set m2 := dqNull 1 8 6 7 22 m1 with hm2
  have e22 : m2 = store m1 22 (-(m1 8) * (m1 6 - m1 7)) := rfl
  have f2 : ∀ c, c ≠ 22 → m2 c = m1 c := fun c hc => by rw [e22, store, if_neg hc]
  have v := (C37_xlsnp 6 1 0 16 9 22 15 23 m2 (by omega) (by omega) (by omega) (by omega) (by omega)).1
  rw [vden_arr, vden_arr, vden_arr] at v
  set m' := xlsnp 6 1 0 16 9 22 15 23 m2 with hm'
  have eX2 : (marr 1 6 16).den m2 = X6 := by
    rw [← eX]
    exact den_congr (fun i hi k hk => f2 _ (by simp only [DMat.ref] at hi hk ⊢; omega))
  have eJ : (marr 6 1 0).den m2 = J6 := by
    funext i k
    have hi := i.2
    have hk := k.2
    show m2 (0 + (6 * k.val + i.val)) = if i = 0 then (1 : ℝ) else 0
    simp only at hi hk
    rw [f2 _ (by omega), f1 _ (by omega), memOne, show k.val = 0 by omega]
    congr 1
    simp only [eq_iff_iff, Fin.ext_iff]
    show _ ↔ i.val = 0
    omega
  have ex : vecAt 6 9 m2 = 0 := by
    rw [← hx]
    funext i
    have := i.2
    simp only [vecAt]
    rw [f2 _ (by omega), f1 _ (by omega)]
  have ep : vecAt 1 22 m2 = fun _ => -1 := by
    funext i
    have : i.val = 0 := by omega
    simp only [vecAt, this, Nat.add_zero]
    rw [e22, store, if_pos rfl, f1 8 (by omega), f1 6 (by omega), f1 7 (by omega)]
    simp [memOne]
  rw [eX2, eJ, ex, ep] at v
  have v0 : m' 15 = 0 - ((1 / 4 : ℝ) - 1) * (-1) := by
    have v1 : vecAt 1 15 m' = X6 *ᵥ (0 : Fin 6 → ℝ) - (X6 * J6 - 1) *ᵥ (fun _ => (-1 : ℝ)) := v
    have v2 := congrFun v1 0
    rw [Matrix.mulVec_zero, Pi.sub_apply, Matrix.mulVec, dotProduct, Fin.sum_univ_one, Matrix.sub_apply,
      Matrix.mul_apply, Matrix.one_apply_eq, Fin.sum_univ_succ] at v2
    have v3 : vecAt 1 15 m' 0 = m' 15 := rfl
    rw [v3] at v2
    simpa [X6, J6] using v2
  rw [Matrix.mulVec, dotProduct, Fin.sum_univ_one]
  show memOne 0 * m' 15 = _
  rw [v0]
  simp only [memOne]
  norm_num

end Verif.IkJacStep
