import Verif.Model.Diffeq
import Verif.Prop.Mat
import Mathlib.Algebra.MvPolynomial.PDeriv
import Mathlib.Algebra.MvPolynomial.Degrees
import Mathlib.Analysis.Calculus.Deriv.Slope
import Mathlib.Tactic.FieldSimp

/-!
# C39: finite difference gradients and Jacobians
-/

namespace Verif.Diffeq
open Verif.Mat Filter Topology

/-- the point moved by `h` along coordinate `k`. -/
def shift {n : Nat} (v : Fin n → ℝ) (k : Fin n) (h : ℝ) : Fin n → ℝ := Function.update v k (v k + h)

/-- the symmetric difference quotient. -/
noncomputable def quot {n : Nat} (f : (Fin n → ℝ) → ℝ) (v : Fin n → ℝ) (k : Fin n) (eps : ℝ) : ℝ :=
  (f (shift v k eps) - f (shift v k (-eps))) / (2 * eps)

theorem upd_fin {n : Nat} (g : Nat → ℝ) (k : Nat) (hk : k < n) (h : ℝ) :
    (fun i : Fin n => Function.update g k (g k + h) i) = shift (fun i : Fin n => g i) ⟨k, hk⟩ h := by
  funext i
  unfold shift
  by_cases e : i = ⟨k, hk⟩
  · subst e; simp
  · have : i.val ≠ k := fun h => e (Fin.ext h)
    rw [Function.update_of_ne this, Function.update_of_ne e]

/-- **C39.** `aa_de_grad_fd`: fails exactly on different lengths or a zero step; writes only the elements
of `y`, each with the difference quotient at the original `x` (also when `y` overlaps `x`); restores the
scratch points; calls the function at `x + eps e_i` and `x - eps e_i` for each `i` and nowhere else. -/
theorem C39_grad (x : DVec) (f : (Fin x.len → ℝ) → ℝ) (eps : ℝ) (y : DVec) (hy : 0 < y.inc) (mem : Mem ℝ) :
    (gradFd x f eps y mem = none ↔ x.len ≠ y.len ∨ eps = 0) ∧
    ∀ s, gradFd x f eps y mem = some s →
      let v : Fin x.len → ℝ := fun i => mem (x.ref i)
      (∀ k : Fin x.len, s.mem (y.ref k) = quot f v k eps) ∧
      (∀ a, (∀ k < y.len, a ≠ y.ref k) → s.mem a = mem a) ∧
      (∀ k, s.p k = mem (x.ref k)) ∧ (∀ k, s.m k = mem (x.ref k)) ∧
      s.calls = (List.finRange x.len).flatMap fun k => [shift v k eps, shift v k (-eps)] := by
  unfold gradFd
  by_cases h1 : x.len ≠ y.len
  · rw [if_pos h1]; simp [h1]
  rw [if_neg h1]
  by_cases h2 : 2 * eps = 0
  · rw [if_pos h2]
    have : eps = 0 := by linarith
    simp [this]
  rw [if_neg h2]
  have h3 : eps ≠ 0 := fun h => h2 (by rw [h]; ring)
  refine ⟨by simp [h1, h3], ?_⟩
  intro s hs
  rw [Option.some.injEq] at hs
  subst hs
  intro v
  rw [not_not] at h1
  rw [← h1]
  set body := fun (k : Nat) (s : St x.len) =>
      let orig := s.p k
      let p := Function.update s.p k (s.p k + eps)
      let m := Function.update s.m k (s.m k - eps)
      let pv : Fin x.len → ℝ := fun i => p i
      let mv : Fin x.len → ℝ := fun i => m i
      ({ mem := store s.mem (y.ref k) ((f pv - f mv) / (2 * eps))
         p := Function.update p k orig
         m := Function.update m k orig
         calls := s.calls ++ [pv, mv] } : St x.len) with hbody
  have key : ∀ n ≤ x.len,
      let s := forN n body ⟨mem, fun k => mem (x.ref k), fun k => mem (x.ref k), []⟩
      (∀ k : Fin x.len, k.val < n → s.mem (y.ref k) = quot f v k eps) ∧
      (∀ a, (∀ k < n, a ≠ y.ref k) → s.mem a = mem a) ∧
      s.p = (fun k => mem (x.ref k)) ∧ s.m = (fun k => mem (x.ref k)) ∧
      s.calls = ((List.finRange x.len).take n).flatMap fun k => [shift v k eps, shift v k (-eps)] := by
    intro n
    induction n with
    | zero => intro _; simp [forN]
    | succ n ih =>
      intro hn
      obtain ⟨i1, i2, i3, i4, i5⟩ := ih (by omega)
      simp only [forN_snoc]
      set s := forN n body ⟨mem, fun k => mem (x.ref k), fun k => mem (x.ref k), []⟩
      have hp : (fun i : Fin x.len => Function.update s.p n (s.p n + eps) i) = shift v ⟨n, hn⟩ eps := by
        rw [upd_fin s.p n hn eps, i3]
      have hm : (fun i : Fin x.len => Function.update s.m n (s.m n - eps) i) = shift v ⟨n, hn⟩ (-eps) := by
        rw [sub_eq_add_neg, upd_fin s.m n hn (-eps), i4]
      have e : body n s = ⟨store s.mem (y.ref n) (quot f v ⟨n, hn⟩ eps),
          Function.update (Function.update s.p n (s.p n + eps)) n (s.p n),
          Function.update (Function.update s.m n (s.m n - eps)) n (s.p n),
          s.calls ++ [shift v ⟨n, hn⟩ eps, shift v ⟨n, hn⟩ (-eps)]⟩ := by
        simp only [hbody, hp, hm, quot]
      rw [e]
      refine ⟨?_, ?_, ?_, ?_, ?_⟩
      · intro k hk
        simp only [store]
        by_cases hkn : k.val = n
        · rw [if_pos (by rw [hkn])]
          congr 1
          exact Fin.ext hkn.symm
        · rw [if_neg (fun e => hkn (vref_inj hy e))]
          exact i1 k (by omega)
      · intro a ha
        simp only [store]
        rw [if_neg (ha n (by omega))]
        exact i2 a (fun k hk => ha k (by omega))
      · simp only [Function.update_idem, Function.update_eq_self]; exact i3
      · have : s.p n = s.m n := by rw [i3, i4]
        simp only [Function.update_idem, this, Function.update_eq_self]; exact i4
      · simp only
        rw [List.take_add_one, i5, List.flatMap_append]
        congr 1
        rw [List.getElem?_eq_getElem (by simpa using hn)]
        simp
  obtain ⟨i1, i2, i3, i4, i5⟩ := key x.len (le_refl _)
  refine ⟨fun k => i1 k k.2, i2, fun k => by rw [i3], fun k => by rw [i4], ?_⟩
  rw [i5, List.take_of_length_le (by simp)]

/-- **C39.** `aa_de_jac_fd`, the same: element `(i,k)` of `J` is the difference quotient of component `i`
along coordinate `k`. -/
theorem C39_jac (x : DVec) (J : DMat) (hJ : J.rows ≤ J.ld) (f : (Fin J.cols → ℝ) → Nat → ℝ) (eps : ℝ)
    (mem : Mem ℝ) :
    (jacFd x J f eps mem = none ↔ J.cols ≠ x.len ∨ eps = 0) ∧
    ∀ s, jacFd x J f eps mem = some s →
      let v : Fin J.cols → ℝ := fun i => mem (x.ref i)
      (∀ i < J.rows, ∀ k : Fin J.cols, s.mem (J.ref i k) = quot (fun u => f u i) v k eps) ∧
      (∀ a, (∀ i < J.rows, ∀ k < J.cols, a ≠ J.ref i k) → s.mem a = mem a) ∧
      (∀ k, s.p k = mem (x.ref k)) ∧ (∀ k, s.m k = mem (x.ref k)) ∧
      s.calls = (List.finRange J.cols).flatMap fun k => [shift v k (-eps), shift v k eps] := by
  unfold jacFd
  by_cases h1 : J.cols ≠ x.len
  · rw [if_pos h1]; simp [h1]
  rw [if_neg h1]
  by_cases h2 : 2 * eps = 0
  · rw [if_pos h2]
    have : eps = 0 := by linarith
    simp [this]
  rw [if_neg h2]
  have h3 : eps ≠ 0 := fun h => h2 (by rw [h]; ring)
  refine ⟨by simp [h1, h3], ?_⟩
  intro s hs
  rw [Option.some.injEq] at hs
  subst hs
  intro v
  set body := fun (k : Nat) (s : St J.cols) =>
      let orig := s.p k
      let p := Function.update s.p k (s.p k + eps)
      let m := Function.update s.m k (s.m k - eps)
      let pv : Fin J.cols → ℝ := fun i => p i
      let mv : Fin J.cols → ℝ := fun i => m i
      let jtmp := f mv
      let jcol := J.data + k * J.ld
      let mem := forN J.rows (fun i mem => store mem (jcol + i) (f pv i)) s.mem
      let mem := forN J.rows (fun i mem => store mem (jcol + i) (-1 * jtmp i + mem (jcol + i))) mem
      let mem := dscal J.rows (1 / (2 * eps)) jcol 1 mem
      ({ mem := mem
         p := Function.update p k orig
         m := Function.update m k orig
         calls := s.calls ++ [mv, pv] } : St J.cols) with hbody
  have col : ∀ (k : Nat) (pv mv : Fin J.cols → ℝ) (m : Mem ℝ),
      VecWrite ⟨J.rows, J.data + k * J.ld, 1⟩ m
        (dscal J.rows (1 / (2 * eps)) (J.data + k * J.ld) 1
          (forN J.rows (fun i mem => store mem (J.data + k * J.ld + i) (-1 * f mv i + mem (J.data + k * J.ld + i)))
            (forN J.rows (fun i mem => store mem (J.data + k * J.ld + i) (f pv i)) m)))
        (fun i => (f pv i - f mv i) / (2 * eps)) := by
    intro k pv mv m
    set c : DVec := ⟨J.rows, J.data + k * J.ld, 1⟩ with hc
    have hr : ∀ i, c.ref i = J.data + k * J.ld + i := by intro i; simp [hc, DVec.ref]
    have self : ∀ k < c.len, ∀ l < c.len, l ≠ k → c.ref k ≠ c.ref l :=
      fun k _ l _ hne e => hne (vref_inj (by simp [hc]) e).symm
    have w1 := forN_vec (v := c) (by simp [hc]) (fun i (_ : Mem ℝ) => f pv i) (fun _ _ _ _ _ => rfl) m
    set m1 := forN c.len (fun i m => store m (c.ref i) (f pv i)) m with hm1
    have w2 := forN_vec (v := c) (by simp [hc]) (fun i (m : Mem ℝ) => -1 * f mv i + m (c.ref i))
      (fun k hk m m' h => by rw [h _ (self k hk)]) m1
    set m2 := forN c.len (fun i m => store m (c.ref i) (-1 * f mv i + m (c.ref i))) m1 with hm2
    have w3 := (C33_vector c (by simp [hc]) (1 / (2 * eps)) m2).2.2.1
    have e3 : dscal J.rows (1 / (2 * eps)) (J.data + k * J.ld) 1
          (forN J.rows (fun i mem => store mem (J.data + k * J.ld + i) (-1 * f mv i + mem (J.data + k * J.ld + i)))
            (forN J.rows (fun i mem => store mem (J.data + k * J.ld + i) (f pv i)) m))
        = vscal (1 / (2 * eps)) c m2 := by
      simp only [hm2, hm1, hr, vscal]
      rfl
    rw [e3]
    refine ⟨?_, ?_⟩
    · intro i hi
      have a1 := w1.1 i hi
      have a2 := w2.1 i hi
      have a3 := w3.1 i hi
      simp only at a1 a2 a3
      rw [a3, a2, a1]
      ring
    · intro a ha
      rw [w3.2 a ha, w2.2 a ha, w1.2 a ha]
  have key : ∀ n ≤ J.cols,
      let s := forN n body ⟨mem, fun k => mem (x.ref k), fun k => mem (x.ref k), []⟩
      (∀ i < J.rows, ∀ k : Fin J.cols, k.val < n → s.mem (J.ref i k) = quot (fun u => f u i) v k eps) ∧
      (∀ a, (∀ i < J.rows, ∀ k < n, a ≠ J.ref i k) → s.mem a = mem a) ∧
      s.p = (fun k => mem (x.ref k)) ∧ s.m = (fun k => mem (x.ref k)) ∧
      s.calls = ((List.finRange J.cols).take n).flatMap fun k => [shift v k (-eps), shift v k eps] := by
    intro n
    induction n with
    | zero => intro _; simp [forN]
    | succ n ih =>
      intro hn
      obtain ⟨i1, i2, i3, i4, i5⟩ := ih (by omega)
      simp only [forN_snoc]
      set s := forN n body ⟨mem, fun k => mem (x.ref k), fun k => mem (x.ref k), []⟩
      have hp : (fun i : Fin J.cols => Function.update s.p n (s.p n + eps) i) = shift v ⟨n, hn⟩ eps := by
        rw [upd_fin s.p n hn eps, i3]
      have hm : (fun i : Fin J.cols => Function.update s.m n (s.m n - eps) i) = shift v ⟨n, hn⟩ (-eps) := by
        rw [sub_eq_add_neg, upd_fin s.m n hn (-eps), i4]
      have w := col n (shift v ⟨n, hn⟩ eps) (shift v ⟨n, hn⟩ (-eps)) s.mem
      have href : ∀ i, (⟨J.rows, J.data + n * J.ld, 1⟩ : DVec).ref i = J.ref i n := by
        intro i; simp only [DVec.ref, DMat.ref]; ring
      have emem : (body n s).mem = (dscal J.rows (1 / (2 * eps)) (J.data + n * J.ld) 1
          (forN J.rows (fun i mem => store mem (J.data + n * J.ld + i)
              (-1 * f (shift v ⟨n, hn⟩ (-eps)) i + mem (J.data + n * J.ld + i)))
            (forN J.rows (fun i mem => store mem (J.data + n * J.ld + i) (f (shift v ⟨n, hn⟩ eps) i)) s.mem))) := by
        simp only [hbody, hp, hm]
      refine ⟨?_, ?_, ?_, ?_, ?_⟩
      · intro i hi k hk
        rw [emem]
        by_cases hkn : k.val = n
        · have hk' : k = ⟨n, hn⟩ := Fin.ext hkn
          have := w.1 i hi
          rw [href] at this
          rw [hkn, this, hk']
          rfl
        · rw [w.2]
          · exact i1 i hi k (by omega)
          · intro l hl e
            rw [href] at e
            exact hkn (mref_inj hJ hi hl e).1
      · intro a ha
        rw [emem, w.2]
        · exact i2 a (fun i hi k hk => ha i hi k (by omega))
        · intro l hl
          rw [href]
          exact ha l hl n (by omega)
      · simp only [hbody, Function.update_idem, Function.update_eq_self]; exact i3
      · have : s.p n = s.m n := by rw [i3, i4]
        simp only [hbody, Function.update_idem, this, Function.update_eq_self]; exact i4
      · have : (body n s).calls = s.calls ++ [shift v ⟨n, hn⟩ (-eps), shift v ⟨n, hn⟩ eps] := by
          simp only [hbody, hp, hm]
        rw [this, List.take_add_one, i5, List.flatMap_append]
        congr 1
        rw [List.getElem?_eq_getElem (by simpa using hn)]
        simp
  obtain ⟨i1, i2, i3, i4, i5⟩ := key J.cols (le_refl _)
  refine ⟨fun i hi k => i1 i hi k k.2, i2, fun k => by rw [i3], fun k => by rw [i4], ?_⟩
  rw [i5, List.take_of_length_le (by simp)]

/-- **C39 (exactness).** For a polynomial of degree at most two in coordinate `k`, the quotient is its
partial derivative, whatever the step. -/
theorem C39_exact {n : Nat} (p : MvPolynomial (Fin n) ℝ) (v : Fin n → ℝ) (k : Fin n) (eps : ℝ) (h0 : eps ≠ 0)
    (hd : MvPolynomial.degreeOf k p ≤ 2) :
    quot (fun u => MvPolynomial.eval u p) v k eps = MvPolynomial.eval v (MvPolynomial.pderiv k p) := by
  unfold quot
  rw [div_eq_iff (by simpa using h0)]
  have mono : ∀ d ∈ p.support,
      MvPolynomial.eval (shift v k eps) (MvPolynomial.monomial d (p.coeff d))
        - MvPolynomial.eval (shift v k (-eps)) (MvPolynomial.monomial d (p.coeff d))
      = MvPolynomial.eval v (MvPolynomial.pderiv k (MvPolynomial.monomial d (p.coeff d))) * (2 * eps) := by
    intro d hdm
    have hdk : d k ≤ 2 := (MvPolynomial.monomial_le_degreeOf k hdm).trans hd
    have e : ∀ h : ℝ, MvPolynomial.eval (shift v k h) (MvPolynomial.monomial d (p.coeff d))
        = p.coeff d * ((v k + h) ^ d k * ∏ i ∈ Finset.univ.erase k, v i ^ d i) := by
      intro h
      rw [MvPolynomial.eval_monomial, Finsupp.prod_fintype _ _ (by simp),
        ← Finset.mul_prod_erase _ _ (Finset.mem_univ k)]
      congr 2
      · simp [shift]
      · apply Finset.prod_congr rfl
        intro i hi
        rw [shift, Function.update_of_ne (Finset.ne_of_mem_erase hi)]
    have e' : MvPolynomial.eval v (MvPolynomial.pderiv k (MvPolynomial.monomial d (p.coeff d)))
        = p.coeff d * (d k : ℝ) * (v k ^ (d k - 1) * ∏ i ∈ Finset.univ.erase k, v i ^ d i) := by
      rw [MvPolynomial.pderiv_monomial, MvPolynomial.eval_monomial, Finsupp.prod_fintype _ _ (by simp),
        ← Finset.mul_prod_erase _ _ (Finset.mem_univ k)]
      congr 2
      · simp
      · apply Finset.prod_congr rfl
        intro i hi
        have := Finset.ne_of_mem_erase hi
        simp [Ne.symm this]
    rw [e, e, e']
    have : d k = 0 ∨ d k = 1 ∨ d k = 2 := by omega
    rcases this with h | h | h <;> rw [h] <;> push_cast <;> ring
  have hp : p = ∑ d ∈ p.support, MvPolynomial.monomial d (p.coeff d) := (MvPolynomial.support_sum_monomial_coeff p).symm
  conv_lhs => rw [hp]
  conv_rhs => rw [hp]
  simp only [map_sum, ← Finset.sum_sub_distrib, Finset.sum_mul]
  exact Finset.sum_congr rfl mono

/-- **C39 (convergence).** For a function with a partial derivative at `v`, the quotient tends to it as
the step tends to zero. -/
theorem C39_limit {n : Nat} (f : (Fin n → ℝ) → ℝ) (v : Fin n → ℝ) (k : Fin n) (d : ℝ)
    (h : HasDerivAt (fun t => f (Function.update v k t)) d (v k)) :
    Tendsto (quot f v k) (𝓝[≠] 0) (𝓝 d) := by
  have h1 : Tendsto (fun e : ℝ => e⁻¹ * (f (shift v k e) - f v)) (𝓝[≠] 0) (𝓝 d) := by
    have := hasDerivAt_iff_tendsto_slope_zero.1 h
    simpa [shift] using this
  have hneg : Tendsto (fun e : ℝ => -e) (𝓝[≠] 0) (𝓝[≠] 0) := by
    have : Tendsto (fun e : ℝ => -e) (𝓝[≠] 0) (𝓝 0) := by
      have := (continuous_neg (G := ℝ)).tendsto 0
      rw [neg_zero] at this
      exact this.mono_left nhdsWithin_le_nhds
    rw [tendsto_nhdsWithin_iff]
    refine ⟨this, ?_⟩
    filter_upwards [self_mem_nhdsWithin] with e he
    simpa using he
  have h2 := h1.comp hneg
  have h3 := (h1.add h2).div_const 2
  have e1 : (d + d) / 2 = d := by ring
  rw [e1] at h3
  apply h3.congr'
  filter_upwards [self_mem_nhdsWithin] with e he
  have he : e ≠ 0 := he
  simp only [quot, Function.comp]
  field_simp
  ring

/-- the hypotheses can be met, and the bound two is needed: at degree three the quotient is off by
`eps²`. -/
example : MvPolynomial.degreeOf (0 : Fin 1) (MvPolynomial.X 0 ^ 2 : MvPolynomial (Fin 1) ℝ) ≤ 2 := by
  refine (MvPolynomial.degreeOf_pow_le _ _ _).trans ?_
  simp

theorem C39_cubic (v : Fin 1 → ℝ) (eps : ℝ) (h0 : eps ≠ 0) :
    quot (fun u => u 0 ^ 3) v 0 eps = 3 * v 0 ^ 2 + eps ^ 2 := by
  simp only [quot, shift, Function.update_self]
  field_simp
  ring

end Verif.Diffeq
