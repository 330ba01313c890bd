import Verif.Prop.OdeOrder
import Mathlib.Analysis.Analytic.Basic
import Mathlib.Analysis.Calculus.MeanValue
import Mathlib.Analysis.Calculus.Deriv.Pow

/-!
# Order conditions bound the local error

The trees of `Verif.Ode.Tree` are planar: `graft t u` attaches `u` as the last branch of `t`. With the
elementary differentials built from the power series of `f` (whose `m`-th term is the `m`-th derivative over
`m!`), the exact solution is `∑ h^|t| / γ(t) F(t)` and the Runge-Kutta step is `∑ h^|t| (∑ b_i w_i(t)) F(t)`,
both over all planar trees.
-/

namespace Verif.Ode
open Finset Filter Asymptotics Topology

variable {E : Type} [NormedAddCommGroup E] [NormedSpace ℝ E]

/-- the `m`-th term of the series at the first `m` entries of a sequence. -/
def EN (P : FormalMultilinearSeries ℝ E E) (m : Nat) (v : Nat → E) : E := P m fun i => v i

theorem EN_update (P : FormalMultilinearSeries ℝ E E) (m : Nat) (v : Nat → E) (k : Nat) (hk : k < m) {ι : Type}
    (U : Finset ι) (c : ι → ℝ) (g : ι → E) :
    EN P m (Function.update v k (∑ u ∈ U, c u • g u)) = ∑ u ∈ U, c u • EN P m (Function.update v k (g u)) := by
  have e : ∀ y : E, (fun i : Fin m => Function.update v k y i) = Function.update (fun i : Fin m => v i) ⟨k, hk⟩ y := by
    intro y
    funext i
    by_cases h : i = ⟨k, hk⟩
    · subst h; simp
    · rw [Function.update_of_ne h, Function.update_of_ne]
      intro h'; exact h (Fin.ext h')
  simp only [EN, e]
  have h := (P m).toMultilinearMap.map_update_sum U ⟨k, hk⟩ (fun u => c u • g u) (fun i => v i)
  refine h.trans (Finset.sum_congr rfl fun u _ => ?_)
  exact (P m).toMultilinearMap.map_update_smul _ _ _ _

/-- the series at a list of arguments. -/
def EL (P : FormalMultilinearSeries ℝ E E) (l : List E) : E := EN P l.length fun i => l.getD i 0

theorem EL_sum (P : FormalMultilinearSeries ℝ E E) (pre l : List E) {ι : Type} (U : Finset ι) (c : ι → ℝ) (g : ι → E) :
    EL P (pre ++ (∑ u ∈ U, c u • g u) :: l) = ∑ u ∈ U, c u • EL P (pre ++ g u :: l) := by
  have e : ∀ y : E, EL P (pre ++ y :: l) = EN P (pre.length + (l.length + 1))
      (Function.update (fun i => (pre ++ 0 :: l).getD i 0) pre.length y) := by
    intro y
    have hl : (pre ++ y :: l).length = pre.length + (l.length + 1) := by simp
    rw [EL, hl]
    congr 1
    funext i
    by_cases h : i = pre.length
    · subst h; simp
    · rw [Function.update_of_ne h]
      rcases Nat.lt_or_gt_of_ne h with h1 | h1
      · simp only [List.getD_eq_getElem?_getD, List.getElem?_append_left h1]
      · simp only [List.getD_eq_getElem?_getD, List.getElem?_append_right h1.le]
        obtain ⟨j, hj⟩ : ∃ j, i - pre.length = j + 1 := ⟨i - pre.length - 1, by omega⟩
        rw [hj, List.getElem?_cons_succ, List.getElem?_cons_succ]
  simp only [e]
  exact EN_update P _ _ _ (by omega) U c g

namespace Tree

/-- the elementary differential of a tree with further branches standing for the vectors of the list. -/
def ev (P : FormalMultilinearSeries ℝ E E) : Tree → List E → E
  | dot => fun l => EL P l
  | graft t u => fun l => ev P t (ev P u [] :: l)

/-- the elementary differential. -/
def el (P : FormalMultilinearSeries ℝ E E) (t : Tree) : E := ev P t []

/-- the product of the coefficients of the branches. -/
def br (c : Tree → ℝ) : Tree → ℝ
  | dot => 1
  | graft t u => br c t * c u

/-- the number of branches. -/
def arity : Tree → Nat
  | dot => 0
  | graft t _ => t.arity + 1

/-- every branch is in `U`. -/
def KidsIn (U : Finset Tree) : Tree → Prop
  | dot => True
  | graft t u => t.KidsIn U ∧ u ∈ U

/-- the trees with `m` branches, all in `U`. -/
def fam (U : Finset Tree) : Nat → Finset Tree
  | 0 => {dot}
  | m + 1 => (fam U m ×ˢ U).image fun p => graft p.1 p.2

theorem mem_fam (U : Finset Tree) (m : Nat) (t : Tree) : t ∈ fam U m ↔ t.arity = m ∧ t.KidsIn U := by
  induction m generalizing t with
  | zero => cases t <;> simp [fam, arity, KidsIn]
  | succ m ih =>
    cases t with
    | dot => simp [fam, arity]
    | graft t u =>
      simp only [fam, mem_image, mem_product, ih, arity, KidsIn, Prod.exists, graft.injEq]
      constructor
      · rintro ⟨a, b, ⟨⟨h1, h2⟩, h3⟩, rfl, rfl⟩
        exact ⟨by omega, h2, h3⟩
      · rintro ⟨h1, h2, h3⟩
        exact ⟨t, u, ⟨⟨by omega, h2⟩, h3⟩, rfl, rfl⟩

theorem expand (P : FormalMultilinearSeries ℝ E E) (U : Finset Tree) (c : Tree → ℝ) (m : Nat) (l : List E) :
    EL P (List.replicate m (∑ u ∈ U, c u • u.el P) ++ l) = ∑ t ∈ fam U m, br c t • t.ev P l := by
  induction m generalizing l with
  | zero => simp [fam, br, ev]
  | succ m ih =>
    rw [List.replicate_succ', List.append_assoc, List.singleton_append, EL_sum]
    simp only [ih, fam]
    rw [Finset.sum_image (fun p _ q _ h => by simpa [Prod.ext_iff] using h), Finset.sum_product, Finset.sum_comm]
    refine Finset.sum_congr rfl fun t _ => ?_
    rw [Finset.smul_sum]
    refine Finset.sum_congr rfl fun u _ => ?_
    rw [smul_smul, mul_comm]
    rfl

theorem expand_pow (P : FormalMultilinearSeries ℝ E E) (U : Finset Tree) (c : Tree → ℝ) (m : Nat) :
    (P m fun _ => ∑ u ∈ U, c u • u.el P) = ∑ t ∈ fam U m, br c t • t.el P := by
  have h := expand P U c m []
  rw [List.append_nil] at h
  simp only [el] at h ⊢
  rw [← h, EL, EN, List.length_replicate]
  congr 1
  funext i
  simp [List.getD_eq_getElem?_getD]

/-- the trees with at most `n` nodes. -/
def upTo (n : Nat) : Finset Tree := (enum n n).toFinset.filter fun t => t.size ≤ n

theorem mem_upTo (n : Nat) (t : Tree) : t ∈ upTo n ↔ t.size ≤ n := by
  simp only [upTo, mem_filter, List.mem_toFinset]
  exact ⟨fun h => h.2, fun h => ⟨mem_enum n n t h h, h⟩⟩

theorem kidsIn_of_size (n : Nat) (t : Tree) (h : t.size ≤ n + 1) : t.KidsIn (upTo n) := by
  induction t with
  | dot => trivial
  | graft t u h1 _ =>
    have := size_pos t
    have := size_pos u
    simp only [size] at h
    exact ⟨h1 (by omega), (mem_upTo n u).mpr (by omega)⟩

theorem arity_lt (t : Tree) : t.arity < t.size := by
  induction t with
  | dot => simp [arity, size]
  | graft t u h1 _ =>
    have := size_pos u
    simp only [size, arity]; omega

theorem br_pow (α : Tree → ℝ) (h : ℝ) (t : Tree) :
    br (fun u => h ^ u.size * α u) t = h ^ (t.size - 1) * br α t := by
  induction t with
  | dot => simp [br, size]
  | graft t u h1 _ =>
    have e : (graft t u).size - 1 = (t.size - 1) + u.size := by
      have := size_pos t
      simp only [size]; omega
    rw [e, pow_add]
    simp only [br, h1]
    ring

end Tree

/-! ## Analysis -/

theorem pow_isBigO {m n : Nat} (h : m ≤ n) : (fun x : ℝ => x ^ n) =O[𝓝 0] fun x : ℝ => x ^ m := by
  refine IsBigO.of_bound 1 ?_
  filter_upwards [Metric.ball_mem_nhds (0 : ℝ) one_pos] with x hx
  rw [norm_pow, norm_pow, one_mul]
  refine pow_le_pow_of_le_one (norm_nonneg _) ?_ h
  rw [mem_ball_zero_iff] at hx
  exact hx.le

theorem smul_isBigO {n m : Nat} (h : n ≤ m) (c : ℝ) (v : E) :
    (fun x : ℝ => (x ^ m * c) • v) =O[𝓝 0] fun x : ℝ => x ^ n := by
  have : (fun x : ℝ => (x ^ m * c) • v) = fun x => (x ^ m) • (c • v) := by
    funext x; rw [smul_smul]
  rw [this]
  have h2 : (fun x : ℝ => (x ^ m) • (c • v)) =O[𝓝 0] fun x : ℝ => x ^ m • (1 : ℝ) :=
    (isBigO_refl (fun x : ℝ => x ^ m) (𝓝 0)).smul (isBigO_const_const (c • v) (one_ne_zero (α := ℝ)) (𝓝 0))
  simp only [smul_eq_mul, mul_one] at h2
  exact h2.trans (pow_isBigO h)

open Verif.Ode.Tree in
/-- If `y` agrees up to order `n` with the tree series of coefficients `α`, then `f (x0 + y)` agrees up to
order `n` with the series built on the branches. -/
theorem series_comp (f : E → E) (P : FormalMultilinearSeries ℝ E E) (x0 : E) (hf : HasFPowerSeriesAt f P x0)
    (α : Tree → ℝ) (n : Nat) (y : ℝ → E)
    (hy : (fun h => y h - ∑ t ∈ upTo n, (h ^ t.size * α t) • t.el P) =O[𝓝 0] fun h : ℝ => h ^ (n + 1)) :
    (fun h => f (x0 + y h) - ∑ t ∈ upTo (n + 1), (h ^ (t.size - 1) * br α t) • t.el P)
      =O[𝓝 0] fun h : ℝ => h ^ (n + 1) := by
  set Y : ℝ → E := fun h => ∑ t ∈ upTo n, (h ^ t.size * α t) • t.el P with hY
  have hY1 : Y =O[𝓝 0] fun h : ℝ => h ^ 1 :=
    IsBigO.fun_sum fun t _ => smul_isBigO (size_pos t) _ _
  have hy1 : y =O[𝓝 0] fun h : ℝ => h ^ 1 := by
    have := (hy.trans (pow_isBigO (Nat.le_add_left 1 n))).add hY1
    simpa [hY] using this
  have hone : (fun h : ℝ => h ^ 1) =O[𝓝 0] fun _ : ℝ => (1 : ℝ) := by simpa using pow_isBigO (Nat.zero_le 1)
  have hy0 : Tendsto y (𝓝 0) (𝓝 0) := by
    refine hy1.trans_tendsto ?_
    have : Tendsto (fun h : ℝ => h ^ 1) (𝓝 0) (𝓝 (0 ^ 1)) := (continuous_pow 1).tendsto 0
    simpa using this
  -- the Taylor expansion
  have s1 : (fun h => f (x0 + y h) - P.partialSum (n + 1) (y h)) =O[𝓝 0] fun h : ℝ => h ^ (n + 1) := by
    have h1 := (hf.isBigO_sub_partialSum_pow (n + 1)).comp_tendsto hy0
    refine h1.trans ?_
    have h2 := hy1.norm_left.pow (n + 1)
    simpa [Function.comp_def] using h2
  -- replacing y by Y
  have s2 : (fun h => P.partialSum (n + 1) (y h) - P.partialSum (n + 1) (Y h)) =O[𝓝 0] fun h : ℝ => h ^ (n + 1) := by
    simp only [FormalMultilinearSeries.partialSum, ← Finset.sum_sub_distrib]
    refine IsBigO.fun_sum fun m _ => ?_
    have hb : (fun h => max ‖y h‖ ‖Y h‖) =O[𝓝 0] fun _ : ℝ => (1 : ℝ) := by
      have h1 := (hy1.trans hone).norm_left
      have h2 := (hY1.trans hone).norm_left
      refine IsBigO.trans (IsBigO.of_bound 1 ?_) (h1.add h2)
      filter_upwards with h
      have h3 := norm_nonneg (y h)
      have h4 := norm_nonneg (Y h)
      rw [Real.norm_of_nonneg (le_max_of_le_left h3), Real.norm_of_nonneg (by positivity), one_mul]
      exact max_le (by linarith) (by linarith)
    have hb' : (fun h => ‖P m‖ * (m : ℝ) * max ‖y h‖ ‖Y h‖ ^ (m - 1) * ‖y h - Y h‖) =O[𝓝 0] fun h : ℝ => h ^ (n + 1) := by
      have h1 := ((hb.pow (m - 1)).const_mul_left (‖P m‖ * (m : ℝ))).mul hy.norm_left
      simpa using h1
    refine IsBigO.trans (IsBigO.of_bound 1 ?_) hb'
    filter_upwards with h
    have h1 := (P m).norm_image_sub_le (fun _ => y h) (fun _ => Y h)
    rw [one_mul]
    refine h1.trans ?_
    rw [Real.norm_of_nonneg (by positivity)]
    rw [Fintype.card_fin]
    rcases Nat.eq_zero_or_pos m with h0 | h0
    · subst h0; simp
    · have : Nonempty (Fin m) := ⟨⟨0, h0⟩⟩
      have e3 : (fun _ : Fin m => y h) - (fun _ => Y h) = fun _ => y h - Y h := rfl
      rw [e3, pi_norm_const, pi_norm_const, pi_norm_const]
  -- expanding
  have s3 : (fun h => P.partialSum (n + 1) (Y h) - ∑ t ∈ upTo (n + 1), (h ^ (t.size - 1) * br α t) • t.el P)
      =O[𝓝 0] fun h : ℝ => h ^ (n + 1) := by
    have e : ∀ h, P.partialSum (n + 1) (Y h) - ∑ t ∈ upTo (n + 1), (h ^ (t.size - 1) * br α t) • t.el P =
        ∑ t ∈ ((range (n + 1)).biUnion fun m => fam (upTo n) m) \ upTo (n + 1), (h ^ (t.size - 1) * br α t) • t.el P := by
      intro h
      have hsub : upTo (n + 1) ⊆ (range (n + 1)).biUnion fun m => fam (upTo n) m := by
        intro t ht
        rw [mem_upTo] at ht
        rw [Finset.mem_biUnion]
        refine ⟨t.arity, ?_, (mem_fam _ _ _).mpr ⟨rfl, kidsIn_of_size n t ht⟩⟩
        have := arity_lt t
        rw [Finset.mem_range]; omega
      rw [eq_comm, eq_sub_iff_add_eq, Finset.sum_sdiff hsub, Finset.sum_biUnion, FormalMultilinearSeries.partialSum]
      · refine Finset.sum_congr rfl fun m _ => ?_
        rw [hY]
        simp only [expand_pow P (upTo n) (fun t => h ^ t.size * α t) m, br_pow]
      · intro a _ b _ hab
        rw [Function.onFun, Finset.disjoint_left]
        intro t h1 h2
        rw [mem_fam] at h1 h2
        exact hab (h1.1.symm.trans h2.1)
    simp only [e]
    refine IsBigO.fun_sum fun t ht => smul_isBigO ?_ _ _
    rw [Finset.mem_sdiff, mem_upTo] at ht
    omega
  have := (s1.add s2).add s3
  simpa using this


theorem integrate_isBigO (g g' : ℝ → E) (m : Nat) (hd : ∀ᶠ h in 𝓝 (0 : ℝ), HasDerivAt g (g' h) h)
    (h0 : g 0 = 0) (hg : g' =O[𝓝 0] fun h : ℝ => h ^ m) : g =O[𝓝 0] fun h : ℝ => h ^ (m + 1) := by
  obtain ⟨C, hC0, hC⟩ := hg.exists_nonneg
  replace hC := hC.bound
  obtain ⟨ε, hε, hball⟩ := Metric.eventually_nhds_iff.mp (hd.and hC)
  refine IsBigO.of_bound C ?_
  filter_upwards [Metric.ball_mem_nhds (0 : ℝ) hε] with h hh
  have hin : ∀ x ∈ Metric.closedBall (0 : ℝ) ‖h‖, dist x 0 < ε := by
    intro x hx
    rw [Metric.mem_closedBall] at hx
    rw [mem_ball_zero_iff] at hh
    exact lt_of_le_of_lt hx hh
  have hb := Convex.norm_image_sub_le_of_norm_hasDerivWithin_le (C := C * ‖h‖ ^ m) (f := g) (f' := g')
    (s := Metric.closedBall (0 : ℝ) ‖h‖) (x := 0) (y := h)
    (fun x hx => (hball (hin x hx)).1.hasDerivWithinAt)
    (fun x hx => ?_) (convex_closedBall _ _) (by simp) (by simp)
  · rw [h0, sub_zero, sub_zero, mul_assoc] at hb
    rw [norm_pow, pow_succ]
    exact hb
  · have h1 := (hball (hin x hx)).2
    rw [norm_pow] at h1
    have hx' : ‖x‖ ≤ ‖h‖ := by simpa using hx
    exact h1.trans (mul_le_mul_of_nonneg_left (pow_le_pow_left₀ (norm_nonneg _) hx' m) hC0)

open Verif.Ode.Tree in
/-- The tree expansion of the exact solution. -/
theorem exact_series (f : E → E) (P : FormalMultilinearSeries ℝ E E) (x0 : E) (hf : HasFPowerSeriesAt f P x0)
    (x : ℝ → E) (hx0 : x 0 = x0) (hx : ∀ᶠ h in 𝓝 (0 : ℝ), HasDerivAt x (f (x h)) h) (n : Nat) :
    (fun h => (x h - x0) - ∑ t ∈ upTo n, (h ^ t.size * (1 / t.density : ℚ)) • t.el P)
      =O[𝓝 0] fun h : ℝ => h ^ (n + 1) := by
  induction n with
  | zero =>
    have e : upTo 0 = ∅ := by
      ext t; rw [mem_upTo]; have := size_pos t; simp; omega
    have h1 := hx.self_of_nhds.isBigO_sub
    simpa [e, hx0] using h1
  | succ n ih =>
    have hc := series_comp f P x0 hf (fun t => ((1 / t.density : ℚ) : ℝ)) n (fun h => x h - x0) ih
    have hb : ∀ t : Tree, br (fun t => ((1 / t.density : ℚ) : ℝ)) t = t.size * ((1 / t.density : ℚ) : ℝ) := by
      intro t
      induction t with
      | dot => simp [br, size, density]
      | graft t u h1 h2 =>
        have p1 : (t.size : ℝ) ≠ 0 := by have := size_pos t; positivity
        have p2 : (u.size : ℝ) ≠ 0 := by have := size_pos u; positivity
        have p3 : (t.size : ℝ) + u.size ≠ 0 := by have := size_pos u; positivity
        simp only [br, h1, density, size]
        push_cast
        by_cases q1 : (t.density : ℝ) = 0
        · simp [q1]
        by_cases q2 : (u.density : ℝ) = 0
        · simp [q2]
        field_simp
    refine integrate_isBigO _ (fun h => f (x h) - ∑ t ∈ upTo (n + 1), (h ^ (t.size - 1) * br (fun t => ((1 / t.density : ℚ) : ℝ)) t) • t.el P) (n + 1) ?_ ?_ ?_
    · filter_upwards [hx] with h hh
      refine (hh.sub_const x0).sub (HasDerivAt.fun_sum fun t _ => ?_)
      refine HasDerivAt.smul_const ?_ (t.el P)
      rw [hb]
      have := (hasDerivAt_pow t.size h).mul_const (((1 / t.density : ℚ) : ℝ))
      refine this.congr_deriv ?_
      ring
    · rw [hx0, sub_self, zero_sub, neg_eq_zero]
      refine Finset.sum_eq_zero fun t _ => ?_
      rw [zero_pow (by have := size_pos t; omega), zero_mul, zero_smul]
    · simpa using hc

/-- an explicit tableau: each stage uses the earlier ones only. -/
def Explicit {s : Nat} (T : Tableau s) : Prop := ∀ i j, i ≤ j → T.a i j = 0

open Verif.Ode.Tree in
/-- The tree expansion of the stages of an explicit step. -/
theorem stage_series {s : Nat} (T : Tableau s) (hT : Explicit T) (f : E → E) (P : FormalMultilinearSeries ℝ E E)
    (x0 : E) (hf : HasFPowerSeriesAt f P x0) (k : ℝ → Fin s → E)
    (hk : ∀ h i, k h i = f (x0 + h • ∑ j, (T.a i j : ℝ) • k h j)) (n : Nat) (i : Fin s) :
    (fun h => k h i - ∑ t ∈ upTo n, (h ^ (t.size - 1) * (t.weight T.a i : ℚ)) • t.el P) =O[𝓝 0] fun h : ℝ => h ^ n := by
  have hcont : ContinuousAt f x0 := hf.continuousAt
  induction n generalizing i with
  | zero =>
    have e : upTo 0 = ∅ := by
      ext t; rw [mem_upTo]; have := size_pos t; simp; omega
    have hb : ∀ i, (fun h => k h i) =O[𝓝 0] fun _ : ℝ => (1 : ℝ) := by
      intro i
      induction i using WellFoundedLT.induction with
      | ind i ih =>
        have h1 : (fun h : ℝ => ∑ j, (T.a i j : ℝ) • k h j) =O[𝓝 0] fun _ : ℝ => (1 : ℝ) := by
          refine IsBigO.fun_sum fun j _ => ?_
          rcases lt_or_ge j i with hj | hj
          · exact (ih j hj).const_smul_left _
          · simp only [hT i j hj, Rat.cast_zero, zero_smul]
            exact isBigO_zero _ _
        have h2 : Tendsto (fun h : ℝ => x0 + h • ∑ j, (T.a i j : ℝ) • k h j) (𝓝 0) (𝓝 x0) := by
          have h3 : Tendsto (fun h : ℝ => h • ∑ j, (T.a i j : ℝ) • k h j) (𝓝 0) (𝓝 0) := by
            have h4 := (isBigO_refl (fun h : ℝ => h) (𝓝 0)).smul h1
            refine h4.trans_tendsto ?_
            simp only [smul_eq_mul, mul_one]
            exact tendsto_id
          simpa using tendsto_const_nhds.add h3
        have h5 := (hcont.tendsto.comp h2).isBigO_one ℝ
        refine h5.congr_left fun h => ?_
        exact (hk h i).symm
    simpa [e] using hb i
  | succ n ih =>
    have hy : (fun h => h • ∑ j, (T.a i j : ℝ) • k h j - ∑ t ∈ upTo n, (h ^ t.size *
        ∑ j, (T.a i j : ℝ) * (t.weight T.a j : ℚ)) • t.el P) =O[𝓝 0] fun h : ℝ => h ^ (n + 1) := by
      have h1 : (fun h : ℝ => h • ∑ j, (T.a i j : ℝ) • (k h j - ∑ t ∈ upTo n, (h ^ (t.size - 1) *
          (t.weight T.a j : ℚ)) • t.el P)) =O[𝓝 0] fun h : ℝ => h • h ^ n :=
        (isBigO_refl _ _).smul (IsBigO.fun_sum fun j _ => (ih j).const_smul_left _)
      refine (h1.congr_left fun h => ?_).trans ?_
      · simp only [smul_sub, Finset.sum_sub_distrib, Finset.smul_sum]
        congr 1
        rw [Finset.sum_comm]
        refine Finset.sum_congr rfl fun t _ => ?_
        rw [Finset.mul_sum, Finset.sum_smul]
        refine Finset.sum_congr rfl fun j _ => ?_
        rw [smul_smul, smul_smul]
        congr 1
        obtain ⟨q, hq⟩ : ∃ q, t.size = q + 1 := ⟨t.size - 1, by have := size_pos t; omega⟩
        rw [hq, Nat.add_sub_cancel, pow_succ]
        ring
      · simpa [pow_succ, mul_comm] using isBigO_refl (fun h : ℝ => h * h ^ n) (𝓝 0)
    have hc := series_comp f P x0 hf (fun t => ∑ j, (T.a i j : ℝ) * (t.weight T.a j : ℚ)) n _ hy
    have hw : ∀ t : Tree, br (fun t => ∑ j, (T.a i j : ℝ) * (t.weight T.a j : ℚ)) t = (t.weight T.a i : ℚ) := by
      intro t
      induction t with
      | dot => simp [br, weight]
      | graft t u h1 h2 =>
        simp only [br, h1, weight]
        push_cast
        rfl
    refine hc.congr_left fun h => ?_
    rw [← hk h i]
    simp only [hw]

open Verif.Ode.Tree in
/-- Butcher's theorem for time independent systems. -/
theorem butcher_autonomous {s : Nat} (T : Tableau s) (hT : Explicit T) (b : Fin s → ℚ) (p : Nat)
    (hb : ∀ t : Tree, t.size ≤ p → ∑ i, b i * t.weight T.a i = 1 / t.density)
    (f : E → E) (x0 : E) (hf : AnalyticAt ℝ f x0) (k : ℝ → Fin s → E)
    (hk : ∀ h i, k h i = f (x0 + h • ∑ j, (T.a i j : ℝ) • k h j))
    (x : ℝ → E) (hx0 : x 0 = x0) (hx : ∀ᶠ h in 𝓝 (0 : ℝ), HasDerivAt x (f (x h)) h) :
    (fun h => (x0 + h • ∑ i, (b i : ℝ) • k h i) - x h) =O[𝓝 0] fun h : ℝ => h ^ (p + 1) := by
  obtain ⟨P, hP⟩ := hf
  have h1 : (fun h : ℝ => h • ∑ j, (b j : ℝ) • (k h j - ∑ t ∈ upTo p, (h ^ (t.size - 1) *
      (t.weight T.a j : ℚ)) • t.el P)) =O[𝓝 0] fun h : ℝ => h • h ^ p :=
    (isBigO_refl _ _).smul (IsBigO.fun_sum fun j _ => (stage_series T hT f P x0 hP k hk p j).const_smul_left _)
  have h2 := exact_series f P x0 hP x hx0 hx p
  have h3 : (fun h : ℝ => h • h ^ p) = fun h : ℝ => h ^ (p + 1) := by
    funext h; rw [smul_eq_mul, pow_succ, mul_comm]
  rw [h3] at h1
  refine (h1.sub h2).congr_left fun h => ?_
  have e : h • ∑ j, (b j : ℝ) • (∑ t ∈ upTo p, (h ^ (t.size - 1) * (t.weight T.a j : ℚ)) • t.el P) =
      ∑ t ∈ upTo p, (h ^ t.size * (1 / t.density : ℚ)) • t.el P := by
    simp only [Finset.smul_sum]
    rw [Finset.sum_comm]
    refine Finset.sum_congr rfl fun t ht => ?_
    rw [← hb t ((mem_upTo p t).mp ht)]
    push_cast
    rw [Finset.mul_sum, Finset.sum_smul]
    refine Finset.sum_congr rfl fun j _ => ?_
    rw [smul_smul, smul_smul]
    congr 1
    obtain ⟨q, hq⟩ : ∃ q, t.size = q + 1 := ⟨t.size - 1, by have := size_pos t; omega⟩
    rw [hq, Nat.add_sub_cancel, pow_succ]
    ring
  simp only [smul_sub, Finset.sum_sub_distrib]
  rw [e]
  abel

/-- Butcher's theorem: a step meeting the order conditions up to `p` has local error of order `p + 1`. -/
theorem butcher_local {s : Nat} (T : Tableau s) (hT : Explicit T) (b : Fin s → ℚ) (p : Nat)
    (ho : Order T b p) (f : ℝ → E → E) (t0 : ℝ) (x0 : E) (hf : AnalyticAt ℝ (Function.uncurry f) (t0, x0))
    (x1 : ℝ → E) (hs : ∀ h, IsStep T b f t0 h x0 (x1 h))
    (x : ℝ → E) (hx0 : x t0 = x0) (hx : ∀ᶠ t in 𝓝 t0, HasDerivAt x (f t (x t)) t) :
    (fun h => x1 h - x (t0 + h)) =O[𝓝 0] fun h : ℝ => h ^ (p + 1) := by
  choose k hk hx1 using hs
  set F : ℝ × E → ℝ × E := fun z => (1, f z.1 z.2) with hF
  have hFa : AnalyticAt ℝ F (t0, x0) := analyticAt_const.prod hf
  have h1 := butcher_autonomous T hT b p ho.2 F (t0, x0) hFa (fun h i => (1, k h i)) (fun h i => ?_)
    (fun h => (t0 + h, x (t0 + h))) (by simp [hx0]) ?_
  · refine IsBigO.trans (IsBigO.of_bound 1 ?_) h1
    filter_upwards with h
    rw [one_mul]
    refine le_trans ?_ (norm_snd_le _)
    apply le_of_eq
    congr 1
    simp only [Prod.snd_sub, Prod.snd_add, Prod.smul_snd, Prod.snd_sum]
    rw [hx1]
  · rw [hF]
    simp only [Prod.fst_add, Prod.snd_add, Prod.smul_fst, Prod.smul_snd, Prod.fst_sum, Prod.snd_sum, smul_eq_mul, mul_one]
    congr 1
    rw [hk h i, ho.1 i]
    push_cast
    rfl
  · have ht : Tendsto (fun h : ℝ => t0 + h) (𝓝 0) (𝓝 t0) := by
      have : Tendsto (fun h : ℝ => t0 + h) (𝓝 0) (𝓝 (t0 + 0)) := (continuous_const.add continuous_id).tendsto 0
      simpa using this
    filter_upwards [ht.eventually hx] with h hh
    have h2 : HasDerivAt (fun h : ℝ => t0 + h) 1 h := by simpa using (hasDerivAt_id h).const_add t0
    have h3 : HasDerivAt (fun h : ℝ => x (t0 + h)) (f (t0 + h) (x (t0 + h))) h := by
      have h4 := hh.scomp h h2
      rw [one_smul] at h4
      exact h4
    exact h2.prodMk h3

end Verif.Ode
