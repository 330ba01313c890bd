import Verif.Proof.TrajGlue
import Mathlib.Analysis.Calculus.Deriv.Mul
import Mathlib.Analysis.Calculus.Deriv.Add
import Mathlib.Analysis.Calculus.Deriv.Pow
import Mathlib.Tactic.Ring
import Mathlib.Tactic.FieldSimp
import Mathlib.Tactic.NormNum

/-! # Helper lemmas on the joint-space trajectory generators -/

namespace Verif.Ct

open Set

variable {n : Nat}

/-! ## Running maximum -/

theorem foldl_max_ge (l : List ℝ) (a : ℝ) : a ≤ l.foldl max a ∧ ∀ x ∈ l, x ≤ l.foldl max a := by
  induction l generalizing a with
  | nil => simp
  | cons y l ih =>
    obtain ⟨h1, h2⟩ := ih (max a y)
    rw [List.foldl_cons]
    refine ⟨(le_max_left _ _).trans h1, ?_⟩
    intro x hx
    rcases List.mem_cons.1 hx with rfl | hx
    · exact (le_max_right _ _).trans h1
    · exact h2 x hx

theorem foldl_max_le (l : List ℝ) (a b : ℝ) (ha : a ≤ b) (h : ∀ x ∈ l, x ≤ b) :
    l.foldl max a ≤ b := by
  induction l generalizing a with
  | nil => exact ha
  | cons y l ih =>
    rw [List.foldl_cons]
    exact ih _ (max_le ha (h y (by simp))) fun x hx => h x (List.mem_cons_of_mem _ hx)

theorem le_maxOver (a : ℝ) (f : Fin n → ℝ) : a ≤ maxOver a f := (foldl_max_ge _ a).1

theorem maxOver_ge (a : ℝ) (f : Fin n → ℝ) (i : Fin n) : f i ≤ maxOver a f :=
  (foldl_max_ge _ a).2 _ (List.mem_ofFn.2 ⟨i, rfl⟩)

theorem maxOver_le (a b : ℝ) (f : Fin n → ℝ) (ha : a ≤ b) (h : ∀ i, f i ≤ b) :
    maxOver a f ≤ b := by
  refine foldl_max_le _ _ _ ha ?_
  intro x hx
  obtain ⟨i, rfl⟩ := List.mem_ofFn.1 hx
  exact h i

/-- Dividing by at least the time a joint needs keeps the quotient within the limits. -/
theorem within_limits {d lo hi dt : ℝ} (hdt : 0 < dt) (hlo : lo < 0) (hhi : 0 < hi)
    (h : (if d < 0 then d / lo else d / hi) ≤ dt) : lo ≤ d / dt ∧ d / dt ≤ hi := by
  split at h
  · rename_i hd
    have h1 : dt * lo ≤ d := by rwa [div_le_iff_of_neg hlo] at h
    refine ⟨by rw [le_div_iff₀ hdt]; linarith, ?_⟩
    have := div_neg_of_neg_of_pos hd hdt
    linarith
  · rename_i hd
    push Not at hd
    have h1 : d ≤ dt * hi := by rwa [div_le_iff₀ hhi] at h
    refine ⟨?_, by rw [div_le_iff₀ hdt]; linarith⟩
    have := div_nonneg hd hdt.le
    linarith

/-! ## Constant velocity -/

/-- The curve of a constant velocity segment. -/
def SegDq.piece (c : SegDq n) : Piece n :=
  ⟨c.t0, c.t1, fun t i => c.q0 i + (t - c.t0) * c.dq i, fun _ => c.dq⟩

theorem SegDq.covers (c : SegDq n) : Covers c.eval [c.piece] := by
  intro st t
  by_cases h : c.t0 ≤ t ∧ t ≤ c.t1
  · rw [sel_cons_pos c.piece [] h]
    simp only [SegDq.eval, if_pos h]
    refine ⟨by simp, ?_⟩
    rintro p ⟨⟩
    exact ⟨rfl, rfl⟩
  · rw [sel_cons_neg c.piece [] h]
    simp only [SegDq.eval, if_neg h]
    simp [sel]

theorem SegDq.deriv (c : SegDq n) (t : ℝ) : HasDerivAt c.piece.g (c.piece.g' t) t := by
  rw [hasDerivAt_pi]
  intro i
  have := (((hasDerivAt_id t).sub_const c.t0).mul_const (c.dq i)).const_add (c.q0 i)
  simpa [SegDq.piece] using this

/-! ## Constant acceleration -/

/-- The curve of a constant acceleration segment with the sign of the code or the other one. -/
noncomputable def SegDdq.piece (sgn : ℝ) (c : SegDdq n) : Piece n :=
  ⟨c.t0, c.t1, fun t i => c.q0 i + (t - c.t0) * c.dq0 i
      + sgn * ((t - c.t0) * (t - c.t0) * c.ddq i / 2),
    fun t i => c.dq0 i + sgn * ((t - c.t0) * c.ddq i)⟩

theorem SegDdq.covers (sgn : ℝ) (c : SegDdq n) : Covers (c.evalSgn sgn) [c.piece sgn] := by
  intro st t
  by_cases h : c.t0 ≤ t ∧ t ≤ c.t1
  · rw [sel_cons_pos (c.piece sgn) [] h]
    simp only [SegDdq.evalSgn, if_pos h]
    refine ⟨by simp, ?_⟩
    rintro p ⟨⟩
    exact ⟨rfl, rfl⟩
  · rw [sel_cons_neg (c.piece sgn) [] h]
    simp only [SegDdq.evalSgn, if_neg h]
    simp [sel]

theorem SegDdq.deriv (sgn : ℝ) (c : SegDdq n) (t : ℝ) :
    HasDerivAt (c.piece sgn).g ((c.piece sgn).g' t) t := by
  rw [hasDerivAt_pi]
  intro i
  have h0 : HasDerivAt (fun t : ℝ => t - c.t0) 1 t := (hasDerivAt_id t).sub_const c.t0
  have h1 := (h0.mul_const (c.dq0 i)).const_add (c.q0 i)
  have h2 := (((h0.mul h0).mul_const (c.ddq i)).div_const 2).const_mul sgn
  have h := h1.add h2
  simp only [SegDdq.piece]
  convert h using 1
  · rfl
  · ring

theorem SegDdq.cont' (sgn : ℝ) (c : SegDdq n) : Continuous (c.piece sgn).g' := by
  simp only [SegDdq.piece]
  fun_prop

/-! ## Blends -/

/-- Velocity before a blend. -/
def pdqOf (p : Option (Pb n)) : Fin n → ℝ :=
  match p with
  | some p => p.dq
  | none => fun _ => 0

/-- The blend of a segment. -/
noncomputable def Pb.blend (p : Option (Pb n)) (c : Pb n) : Piece n :=
  ⟨c.t - c.b / 2, c.t + c.b / 2,
    fun t i => c.q i + pdqOf p i * (t - c.t) + c.ddq i * ((t - c.t) + c.b / 2) ^ 2 / 2,
    fun t i => pdqOf p i + c.ddq i * ((t - c.t) + c.b / 2)⟩

/-- The linear part of a segment before the blend of the next. -/
noncomputable def Pb.line (c m : Pb n) : Piece n :=
  ⟨c.t + c.b / 2, c.t + c.dt - m.b / 2, fun t i => c.q i + c.dq i * (t - c.t), fun _ => c.dq⟩

/-- The curve of a blended segment. -/
noncomputable def Pb.pieces (p : Option (Pb n)) (c : Pb n) (nx : Option (Pb n)) : List (Piece n) :=
  match nx with
  | none => [c.blend p]
  | some m => [c.blend p, c.line m]

theorem pbEval_covers (p : Option (Pb n)) (c : Pb n) (nx : Option (Pb n)) :
    Covers (pbEval p c nx) (Pb.pieces p c nx) := by
  intro st t
  by_cases h : c.t - c.b / 2 ≤ t ∧ t ≤ c.t + c.b / 2
  · have e : sel (Pb.pieces p c nx) t = some (c.blend p) := by
      cases nx <;> exact sel_cons_pos (c.blend p) _ h
    rw [e]
    simp only [pbEval, if_pos h]
    refine ⟨by simp, ?_⟩
    rintro r ⟨⟩
    cases p <;> exact ⟨rfl, rfl⟩
  · cases nx with
    | none =>
      have e : sel (Pb.pieces p c none) t = none := sel_cons_neg (c.blend p) [] h
      rw [e]
      simp only [pbEval, if_neg h]
      simp
    | some m =>
      have e : sel (Pb.pieces p c (some m)) t = sel [c.line m] t :=
        sel_cons_neg (c.blend p) [c.line m] h
      rw [e]
      simp only [pbEval, if_neg h]
      by_cases h' : c.t + c.b / 2 ≤ t ∧ t ≤ c.t + c.dt - m.b / 2
      · rw [sel_cons_pos (c.line m) [] h', if_pos h']
        refine ⟨by simp, ?_⟩
        rintro r ⟨⟩
        exact ⟨rfl, rfl⟩
      · rw [sel_cons_neg (c.line m) [] h', if_neg h']
        simp [sel]

theorem Pb.blend_deriv (p : Option (Pb n)) (c : Pb n) (t : ℝ) :
    HasDerivAt (c.blend p).g ((c.blend p).g' t) t := by
  rw [hasDerivAt_pi]
  intro i
  have h0 : HasDerivAt (fun t : ℝ => t - c.t) 1 t := (hasDerivAt_id t).sub_const c.t
  have h1 := (h0.const_mul (pdqOf p i)).const_add (c.q i)
  have h2 := (((h0.add_const (c.b / 2)).pow 2).const_mul (c.ddq i)).div_const 2
  have h := h1.add h2
  simp only [Pb.blend]
  convert h using 1
  · rfl
  · push_cast
    ring

theorem Pb.blend_cont' (p : Option (Pb n)) (c : Pb n) : Continuous (c.blend p).g' := by
  simp only [Pb.blend]
  fun_prop

theorem Pb.line_deriv (c m : Pb n) (t : ℝ) : HasDerivAt (c.line m).g ((c.line m).g' t) t := by
  rw [hasDerivAt_pi]
  intro i
  have := (((hasDerivAt_id t).sub_const c.t).const_mul (c.dq i)).const_add (c.q i)
  simpa [Pb.line] using this

/-! ## The linear generator -/

theorem segDqNew_spec {L : Limits n} (hL : ∀ i, L.vmin i < 0 ∧ 0 < L.vmax i) {t0 : ℝ}
    {q0 q1 : Fin n → ℝ} {s : SegDq n} (h : segDqNew L t0 q0 q1 = some s) :
    s.q0 = q0 ∧ s.t0 = t0 ∧ s.t0 < s.t1 ∧
      (∀ i, s.q0 i + (s.t1 - s.t0) * s.dq i = q1 i) ∧
      ∀ i, L.vmin i ≤ s.dq i ∧ s.dq i ≤ L.vmax i := by
  simp only [segDqNew] at h
  split at h
  · cases h
  · rename_i hc
    push Not at hc
    have h := Option.some.inj h
    subst h
    have hp : 0 < maxOver 0 (linTime L fun i => q1 i - q0 i) :=
      lt_of_le_of_ne (le_maxOver _ _) (Ne.symm hc.2)
    refine ⟨rfl, rfl, by simp only; linarith, fun i => ?_, fun i => ?_⟩
    · simp only
      field_simp
      ring
    · exact within_limits hp (hL i).1 (hL i).2 (maxOver_ge 0 (linTime L fun i => q1 i - q0 i) i)

/-- What the loop of the linear generator produces. -/
theorem linLoop_spec {L : Limits n} (hL : ∀ i, L.vmin i < 0 ∧ 0 < L.vmax i) (ps : List (Fin n → ℝ))
    {p p' : Fin n → ℝ} {t T : ℝ} {segs : List (SegDq n)}
    (h : linLoop L p (p' :: ps) t = some (segs, T)) :
    ∃ s rest, segs = s :: rest ∧ s.t0 = t ∧ s.q0 = p ∧
      TChain s.piece (rest.map SegDq.piece) ∧ Joined Piece.g s.piece (rest.map SegDq.piece) ∧
      stop s.piece (rest.map SegDq.piece) = T ∧
      (∀ r ∈ segs, ∀ i, L.vmin i ≤ r.dq i ∧ r.dq i ≤ L.vmax i) ∧
      ∃ τ : List ℝ, List.Forall₂ (fun x y => pev Piece.g (segs.map SegDq.piece) x = y) τ
          (p :: p' :: ps) ∧ τ.Pairwise (· < ·) ∧ τ.head? = some t ∧ τ.getLast? = some T := by
  induction ps generalizing p p' t T segs with
  | nil =>
    simp only [linLoop, Option.bind_eq_bind, Option.bind_eq_some_iff] at h
    obtain ⟨s, hs, r, hr, he⟩ := h
    cases hr
    cases he
    obtain ⟨h1, h2, h3, h4, h5⟩ := segDqNew_spec hL hs
    refine ⟨s, [], rfl, h2, h1, h3.le, trivial, rfl, by simpa using h5, [s.t0, s.t1], ?_, ?_, ?_, ?_⟩
    · refine List.Forall₂.cons ?_ (List.Forall₂.cons ?_ List.Forall₂.nil)
      · rw [List.map_cons, pev_first Piece.g s.piece _ (t := s.t0) ⟨le_refl _, h3.le⟩]
        funext i
        simp [SegDq.piece, h1]
      · rw [List.map_cons, pev_first Piece.g s.piece _ (t := s.t1) ⟨h3.le, le_refl _⟩]
        funext i
        exact h4 i
    · simpa using h3
    · simp [h2]
    · simp
  | cons p'' ps ih =>
    rw [linLoop] at h
    simp only [Option.bind_eq_bind, Option.bind_eq_some_iff] at h
    obtain ⟨s, hs, r, hr, he⟩ := h
    obtain ⟨rs, T'⟩ := r
    cases he
    obtain ⟨h1, h2, h3, h4, h5⟩ := segDqNew_spec hL hs
    obtain ⟨s', rest, e, g1, g2, g3, g4, g5, g6, τ, g7, g8, g9, g10⟩ := ih hr
    subst e
    have hch : TChain s.piece ((s' :: rest).map SegDq.piece) := ⟨h3.le, g1, g3⟩
    have hjg : s'.piece.g s.piece.b = s.piece.g s.piece.b := by
      funext i
      simp only [SegDq.piece, g1, g2]
      rw [h4 i]; ring
    have hj : Joined Piece.g s.piece ((s' :: rest).map SegDq.piece) := ⟨hjg, g4⟩
    refine ⟨s, s' :: rest, rfl, h2, h1, hch, hj, g5, ?_, t :: τ, ?_, ?_, rfl, ?_⟩
    · intro r hr
      rcases List.mem_cons.1 hr with rfl | hr
      · exact h5
      · exact g6 r hr
    · have hτ : ∀ x ∈ τ, s.t1 ≤ x := by
        intro x hx
        cases τ with
        | nil => simp at hx
        | cons y τ =>
          simp only [List.head?_cons, Option.some.injEq] at g9
          rcases List.mem_cons.1 hx with rfl | hx
          · exact le_of_eq g9.symm
          · rw [← g9]; exact ((List.pairwise_cons.1 g8).1 x hx).le
      refine List.Forall₂.cons ?_ ?_
      · rw [List.map_cons, pev_first Piece.g s.piece _ ⟨le_of_eq h2, by
          have : s.piece.b = s.t1 := rfl
          rw [this]; linarith⟩]
        funext i
        simp [SegDq.piece, h1, h2]
      · have : ∀ x ∈ τ, pev Piece.g ((s :: s' :: rest).map SegDq.piece) x =
            pev Piece.g ((s' :: rest).map SegDq.piece) x :=
          fun x hx => pev_rest Piece.g (p := s.piece) (p' := s'.piece) hch hjg (hτ x hx)
        clear hτ g8 g9 g10
        generalize p' :: p'' :: ps = pl at g7
        induction g7 with
        | nil => exact List.Forall₂.nil
        | cons ha _ ih2 =>
          exact List.Forall₂.cons ((this _ (by simp)).trans ha)
            (ih2 fun x hx => this x (List.mem_cons_of_mem _ hx))
    · refine List.pairwise_cons.2 ⟨?_, g8⟩
      intro x hx
      cases τ with
      | nil => simp at hx
      | cons y τ =>
        simp only [List.head?_cons, Option.some.injEq] at g9
        rcases List.mem_cons.1 hx with rfl | hx
        · linarith
        · have := (List.pairwise_cons.1 g8).1 x hx
          linarith
    · rw [List.getLast?_cons, g10]; rfl

/-! ## The trapezoidal generator -/

/-- The limits have their usual signs. -/
def Limits.Ok (L : Limits n) : Prop :=
  ∀ i, L.vmin i < 0 ∧ 0 < L.vmax i ∧ L.amin i < 0 ∧ 0 < L.amax i

/-- The acceleration limit in the direction of motion. -/
noncomputable def dirAcc (L : Limits n) (q0 q1 : Fin n → ℝ) (i : Fin n) : ℝ :=
  if q0 i ≤ q1 i then L.amax i else L.amin i

theorem trap_joint {L : Limits n} (hL : L.Ok) (q0 q1 : Fin n → ℝ) (i : Fin n) :
    0 ≤ trapTa L q0 q1 i ∧ 2 * trapTa L q0 q1 i ≤ trapDt L q0 q1 i ∧
      dirAcc L q0 q1 i * (trapTa L q0 q1 i * (trapDt L q0 q1 i - trapTa L q0 q1 i))
        = q1 i - q0 i ∧
      L.vmin i ≤ dirAcc L q0 q1 i * trapTa L q0 q1 i ∧
      dirAcc L q0 q1 i * trapTa L q0 q1 i ≤ L.vmax i := by
  obtain ⟨hv, hV, ha, hA⟩ := hL i
  unfold trapTa trapDt dirAcc
  by_cases hq : q0 i ≤ q1 i
  · simp only [if_pos hq, mul_one]
    generalize hd : q1 i - q0 i = d
    have hd0 : 0 ≤ d := by linarith
    generalize L.vmax i = V at hV
    generalize L.amax i = A at hA
    have hs : Real.sqrt (d / A) * Real.sqrt (d / A) = d / A :=
      Real.mul_self_sqrt (div_nonneg hd0 hA.le)
    have hs0 := Real.sqrt_nonneg (d / A)
    have hs' : A * (Real.sqrt (d / A) * Real.sqrt (d / A)) = d := by
      rw [hs]; field_simp
    generalize Real.sqrt (d / A) = r at hs0 hs'
    by_cases hc : V < r * A
    · rw [if_pos hc, if_pos hc]
      have h1 : 0 < V / A := div_pos hV hA
      have h2 : V / A < r := by rw [div_lt_iff₀ hA]; exact hc
      refine ⟨h1.le, ?_, ?_, ?_, ?_⟩
      · have : 0 ≤ (d - V * (V / A)) / V := by
          apply div_nonneg _ hV.le
          have : V * (V / A) = A * (V / A * (V / A)) := by field_simp
          rw [this, ← hs']
          have := mul_self_le_mul_self h1.le h2.le
          have := mul_le_mul_of_nonneg_left this hA.le
          linarith
        linarith
      · field_simp; ring
      · have : A * (V / A) = V := by field_simp
        rw [this]; linarith
      · have : A * (V / A) = V := by field_simp
        rw [this]
    · rw [if_neg hc, if_neg hc]
      push Not at hc
      refine ⟨hs0, le_refl _, ?_, ?_, ?_⟩
      · rw [← hs']; ring
      · have := mul_nonneg hA.le hs0
        linarith
      · linarith
  · simp only [if_neg hq]
    push Not at hq
    generalize hd : q1 i - q0 i = d
    have hd0 : d < 0 := by linarith
    generalize L.vmin i = V at hv
    generalize L.amin i = A at ha
    have hs : Real.sqrt (d / A) * Real.sqrt (d / A) = d / A :=
      Real.mul_self_sqrt (div_nonneg_of_nonpos hd0.le ha.le)
    have hs0 := Real.sqrt_nonneg (d / A)
    have hs' : A * (Real.sqrt (d / A) * Real.sqrt (d / A)) = d := by
      have := ha.ne
      rw [hs]; field_simp
    generalize Real.sqrt (d / A) = r at hs0 hs'
    have hA := ha.ne
    have hV' := hv.ne
    by_cases hc : V * -1 < r * A * -1
    · rw [if_pos hc, if_pos hc]
      have h1 : 0 < V / A := div_pos_of_neg_of_neg hv ha
      have h2 : V / A < r := by rw [div_lt_iff_of_neg ha]; linarith
      refine ⟨h1.le, ?_, ?_, ?_, ?_⟩
      · have : 0 ≤ (d - V * (V / A)) / V := by
          apply div_nonneg_of_nonpos _ hv.le
          have : V * (V / A) = A * (V / A * (V / A)) := by field_simp
          rw [this, ← hs']
          have := mul_self_le_mul_self h1.le h2.le
          have := mul_le_mul_of_nonpos_left this ha.le
          linarith
        linarith
      · field_simp; ring
      · have : A * (V / A) = V := by field_simp
        rw [this]
      · have : A * (V / A) = V := by field_simp
        rw [this]; linarith
    · rw [if_neg hc, if_neg hc]
      push Not at hc
      refine ⟨hs0, le_refl _, ?_, ?_, ?_⟩
      · rw [← hs']; ring
      · linarith
      · have := mul_nonpos_of_nonpos_of_nonneg ha.le hs0
        linarith

/-- The common times of a trapezoid. -/
theorem trap_times {L : Limits n} (hL : L.Ok) (q0 q1 : Fin n → ℝ) :
    0 ≤ maxOver 0 (trapTa L q0 q1) ∧
      2 * maxOver 0 (trapTa L q0 q1) ≤ maxOver 0 (trapDt L q0 q1) := by
  refine ⟨le_maxOver _ _, ?_⟩
  have h0 : (0 : ℝ) ≤ maxOver 0 (trapDt L q0 q1) := le_maxOver _ _
  have : maxOver 0 (trapTa L q0 q1) ≤ maxOver 0 (trapDt L q0 q1) / 2 := by
    apply maxOver_le
    · linarith
    · intro i
      have h1 := (trap_joint hL q0 q1 i).2.1
      have h2 := maxOver_ge 0 (trapDt L q0 q1) i
      linarith
  linarith

theorem trapNew_spec {L : Limits n} (hL : L.Ok) {t0 : ℝ} {q0 q1 : Fin n → ℝ} {s : Trap n}
    (h : trapNew L t0 q0 q1 = some s) :
    ∃ ta dt, ta = maxOver 0 (trapTa L q0 q1) ∧ dt = maxOver 0 (trapDt L q0 q1) ∧
      0 < ta ∧ 2 * ta ≤ dt ∧
      (∀ i, s.acc.ddq i = (q1 i - q0 i) / (ta * (dt - ta))) ∧
      s.acc.q0 = q0 ∧ s.acc.dq0 = (fun _ => 0) ∧ s.acc.t0 = t0 ∧ s.acc.t1 = t0 + ta ∧
      s.con.t0 = t0 + ta ∧ s.con.t1 = t0 + dt - ta ∧
      s.dec.t0 = t0 + dt - ta ∧ s.dec.t1 = t0 + dt ∧
      (∀ i, s.con.dq i = s.acc.ddq i * ta) ∧
      (∀ i, s.con.q0 i = q0 i + s.acc.ddq i * ta * ta / 2) ∧
      (∀ i, s.dec.q0 i = s.con.q0 i + s.con.dq i * (dt - 2 * ta)) ∧
      (∀ i, s.dec.dq0 i = s.con.dq i) ∧ (∀ i, s.dec.ddq i = -s.acc.ddq i) ∧
      (∀ i, s.acc.ddq i * (ta * (dt - ta)) = q1 i - q0 i) := by
  obtain ⟨h0, h2⟩ := trap_times hL q0 q1
  simp only [trapNew] at h
  generalize hta : maxOver 0 (trapTa L q0 q1) = ta at h h0 h2
  generalize hdt : maxOver 0 (trapDt L q0 q1) = dt at h h2
  have hden : ta * ta + ta * (dt - 2 * ta) = ta * (dt - ta) := by ring
  rw [hden] at h
  split at h
  · cases h
  · rename_i hc
    push Not at hc
    have h := Option.some.inj h
    subst h
    have hp : 0 < ta := lt_of_le_of_ne h0 (fun e => hc.2 (by rw [← e]; ring))
    refine ⟨ta, dt, rfl, rfl, hp, h2, fun _ => rfl, rfl, rfl, rfl, rfl, rfl, rfl, rfl, rfl,
      fun _ => rfl, fun _ => rfl, fun _ => rfl, fun _ => rfl, fun _ => rfl, fun i => ?_⟩
    exact div_mul_cancel₀ _ hc.2

/-- The common profile of a trapezoid stays within the acceleration limits. -/
theorem trap_acc {L : Limits n} (hL : L.Ok) {t0 : ℝ} {q0 q1 : Fin n → ℝ} {s : Trap n}
    (h : trapNew L t0 q0 q1 = some s) (i : Fin n) :
    (q0 i ≤ q1 i → 0 ≤ s.acc.ddq i ∧ s.acc.ddq i ≤ L.amax i) ∧
    (q1 i ≤ q0 i → L.amin i ≤ s.acc.ddq i ∧ s.acc.ddq i ≤ 0) := by
  obtain ⟨ta, dt, hta, hdt, hp, h2, hddq, _⟩ := trapNew_spec hL h
  obtain ⟨j1, j2, j3, _, _⟩ := trap_joint hL q0 q1 i
  obtain ⟨hv, hV, ha, hA⟩ := hL i
  have m1 : trapTa L q0 q1 i ≤ ta := hta ▸ maxOver_ge _ _ i
  have m2 : trapDt L q0 q1 i ≤ dt := hdt ▸ maxOver_ge _ _ i
  generalize trapTa L q0 q1 i = x at *
  generalize trapDt L q0 q1 i = y at *
  have hpos : 0 < ta * (dt - ta) := mul_pos hp (by linarith)
  have hle : x * (y - x) ≤ ta * (dt - ta) := by nlinarith
  have hx : 0 ≤ x * (y - x) := mul_nonneg j1 (by linarith)
  rw [hddq i]
  unfold dirAcc at j3
  constructor
  · intro hq
    rw [if_pos hq] at j3
    refine ⟨div_nonneg (by linarith) hpos.le, ?_⟩
    rw [div_le_iff₀ hpos, ← j3]
    exact mul_le_mul_of_nonneg_left hle hA.le
  · intro hq
    refine ⟨?_, div_nonpos_of_nonpos_of_nonneg (by linarith) hpos.le⟩
    rcases eq_or_lt_of_le hq with e | hq
    · rw [e, sub_self, zero_div]; exact ha.le
    · rw [if_neg (not_le.2 hq)] at j3
      rw [le_div_iff₀ hpos, ← j3]
      exact mul_le_mul_of_nonpos_left hle ha.le

/-- Velocity of the constant part, when the joint's own coasting time is not longer. -/
theorem trap_vel {L : Limits n} (hL : L.Ok) {t0 : ℝ} {q0 q1 : Fin n → ℝ} {s : Trap n}
    (h : trapNew L t0 q0 q1 = some s) (i : Fin n) (k : ℝ)
    (hi : trapDt L q0 q1 i - trapTa L q0 q1 i ≤
      k * (maxOver 0 (trapDt L q0 q1) - maxOver 0 (trapTa L q0 q1))) :
    k * L.vmin i ≤ s.con.dq i ∧ s.con.dq i ≤ k * L.vmax i := by
  obtain ⟨ta, dt, hta, hdt, hp, h2, hddq, _, _, _, _, _, _, _, _, hc, _⟩ := trapNew_spec hL h
  obtain ⟨j1, j2, j3, j4, j5⟩ := trap_joint hL q0 q1 i
  obtain ⟨hv, hV, ha, hA⟩ := hL i
  rw [← hta, ← hdt] at hi
  generalize trapTa L q0 q1 i = x at *
  generalize trapDt L q0 q1 i = y at *
  have hpos : 0 < dt - ta := by linarith
  have e : s.con.dq i = (q1 i - q0 i) / (dt - ta) := by
    rw [hc, hddq]; field_simp
  rw [e, ← j3, le_div_iff₀ hpos, div_le_iff₀ hpos]
  generalize dirAcc L q0 q1 i = a at *
  have hyx : 0 ≤ y - x := by linarith
  have e2 : a * (x * (y - x)) = a * x * (y - x) := by ring
  rw [e2]
  constructor
  · calc k * L.vmin i * (dt - ta) = L.vmin i * (k * (dt - ta)) := by ring
      _ ≤ L.vmin i * (y - x) := mul_le_mul_of_nonpos_left hi hv.le
      _ ≤ a * x * (y - x) := mul_le_mul_of_nonneg_right j4 hyx
  · calc a * x * (y - x) ≤ L.vmax i * (y - x) := mul_le_mul_of_nonneg_right j5 hyx
      _ ≤ L.vmax i * (k * (dt - ta)) := mul_le_mul_of_nonneg_left hi hV.le
      _ = k * L.vmax i * (dt - ta) := by ring

/-- The curve of a trapezoid. -/
noncomputable def Trap.pieces (sgn : ℝ) (s : Trap n) : List (Piece n) :=
  [s.acc.piece sgn, s.con.piece, s.dec.piece sgn]

theorem trapSegs_covers (sgn : ℝ) (l : List (Trap n)) :
    List.Forall₂ Covers (trapSegs sgn l)
      (l.flatMap fun s => [[s.acc.piece sgn], [s.con.piece], [s.dec.piece sgn]]) := by
  induction l with
  | nil => exact List.Forall₂.nil
  | cons s l ih =>
    simp only [trapSegs, List.flatMap_cons, List.cons_append, List.nil_append]
    exact .cons (s.acc.covers sgn) (.cons s.con.covers (.cons (s.dec.covers sgn) ih))

theorem trap_flatten (sgn : ℝ) (l : List (Trap n)) :
    (l.flatMap fun s => [[s.acc.piece sgn], [s.con.piece], [s.dec.piece sgn]]).flatten =
      l.flatMap (Trap.pieces sgn) := by
  induction l with
  | nil => rfl
  | cons s l ih =>
    simp only [List.flatMap_cons, List.flatten_append, ih]
    rfl

/-- One trapezoid with the acceleration added: times, junctions and end values. -/
theorem trap_curve {L : Limits n} (hL : L.Ok) {t0 : ℝ} {q0 q1 : Fin n → ℝ} {s : Trap n}
    (h : trapNew L t0 q0 q1 = some s) :
    s.acc.t0 = t0 ∧ s.acc.t0 < s.acc.t1 ∧ s.con.t0 = s.acc.t1 ∧ s.con.t0 ≤ s.con.t1 ∧
      s.dec.t0 = s.con.t1 ∧ s.dec.t0 < s.dec.t1 ∧
      (s.acc.piece 1).g s.acc.t0 = q0 ∧ (s.acc.piece 1).g' s.acc.t0 = 0 ∧
      s.con.piece.g s.acc.t1 = (s.acc.piece 1).g s.acc.t1 ∧
      s.con.piece.g' s.acc.t1 = (s.acc.piece 1).g' s.acc.t1 ∧
      (s.dec.piece 1).g s.con.t1 = s.con.piece.g s.con.t1 ∧
      (s.dec.piece 1).g' s.con.t1 = s.con.piece.g' s.con.t1 ∧
      (s.dec.piece 1).g s.dec.t1 = q1 ∧ (s.dec.piece 1).g' s.dec.t1 = 0 := by
  obtain ⟨ta, dt, -, -, hp, h2, -, e1, e2, e3, e4, e5, e6, e7, e8, e9, e10, e11, e12, e13, e14⟩ :=
    trapNew_spec hL h
  refine ⟨e3, by rw [e3, e4]; linarith, by rw [e5, e4], by rw [e5, e6]; linarith,
    by rw [e7, e6], by rw [e7, e8]; linarith, ?_, ?_, ?_, ?_, ?_, ?_, ?_, ?_⟩ <;> funext i <;>
    simp only [SegDdq.piece, SegDq.piece, e1, e2, e3, e4, e5, e6, e7, e8, e9, e10, e11, e12, e13,
      Pi.zero_apply]
  · ring
  · ring
  · ring
  · ring
  · ring
  · ring
  · have := e14 i
    linear_combination this
  · ring

theorem trapLoop_spec {L : Limits n} (hL : L.Ok) (ps : List (Fin n → ℝ))
    {p p' : Fin n → ℝ} {t T : ℝ} {segs : List (Trap n)}
    (h : trapLoop L p (p' :: ps) t = some (segs, T)) :
    ∃ s rest, segs = s :: rest ∧ s.acc.t0 = t ∧
      (s.acc.piece 1).g t = p ∧ (s.acc.piece 1).g' t = 0 ∧
      TChain (s.acc.piece 1) (s.con.piece :: s.dec.piece 1 :: rest.flatMap (Trap.pieces 1)) ∧
      Joined Piece.g (s.acc.piece 1) (s.con.piece :: s.dec.piece 1 :: rest.flatMap (Trap.pieces 1)) ∧
      Joined Piece.g' (s.acc.piece 1) (s.con.piece :: s.dec.piece 1 :: rest.flatMap (Trap.pieces 1)) ∧
      stop (s.acc.piece 1) (s.con.piece :: s.dec.piece 1 :: rest.flatMap (Trap.pieces 1)) = T ∧
      ∃ τ : List ℝ, List.Forall₂ (fun x y => pev Piece.g (segs.flatMap (Trap.pieces 1)) x = y ∧
            pev Piece.g' (segs.flatMap (Trap.pieces 1)) x = 0) τ
          (p :: p' :: ps) ∧ τ.Pairwise (· < ·) ∧ τ.head? = some t ∧ τ.getLast? = some T := by
  induction ps generalizing p p' t T segs with
  | nil =>
    simp only [trapLoop, Option.bind_eq_bind, Option.bind_eq_some_iff] at h
    obtain ⟨s, hs, r, hr, he⟩ := h
    cases hr
    cases he
    obtain ⟨c1, c2, c3, c4, c5, c6, c7, c8, c9, c10, c11, c12, c13, c14⟩ := trap_curve hL hs
    have hch : TChain (s.acc.piece 1) [s.con.piece, s.dec.piece 1] := ⟨c2.le, c3, c4, c5, c6.le⟩
    have hj : Joined Piece.g (s.acc.piece 1) [s.con.piece, s.dec.piece 1] := ⟨c9, c11, trivial⟩
    have hj' : Joined Piece.g' (s.acc.piece 1) [s.con.piece, s.dec.piece 1] := ⟨c10, c12, trivial⟩
    have el : ∀ (f : Piece n → ℝ → Fin n → ℝ), Joined f (s.acc.piece 1) [s.con.piece, s.dec.piece 1] →
        pev f [s.acc.piece 1, s.con.piece, s.dec.piece 1] s.dec.t1 = f (s.dec.piece 1) s.dec.t1 := by
      intro f hf
      rw [pev_rest f hch hf.1 (by show s.acc.t1 ≤ s.dec.t1; linarith),
        pev_rest f hch.2.2 hf.2.1 (by show s.con.t1 ≤ s.dec.t1; linarith),
        pev_first f (s.dec.piece 1) [] (t := s.dec.t1) ⟨c6.le, le_refl _⟩]
    refine ⟨s, [], rfl, c1, c1 ▸ c7, c1 ▸ c8, hch, hj, hj', rfl, [t, s.dec.t1], ?_, ?_, rfl, rfl⟩
    · refine .cons ⟨?_, ?_⟩ (.cons ⟨?_, ?_⟩ .nil)
      · refine (pev_first Piece.g (s.acc.piece 1) _ (t := t) ⟨le_of_eq c1, ?_⟩).trans (c1 ▸ c7)
        show t ≤ s.acc.t1
        linarith
      · refine (pev_first Piece.g' (s.acc.piece 1) _ (t := t) ⟨le_of_eq c1, ?_⟩).trans (c1 ▸ c8)
        show t ≤ s.acc.t1
        linarith
      · exact (el Piece.g hj).trans c13
      · exact (el Piece.g' hj').trans c14
    · simp only [List.pairwise_cons, List.mem_singleton, forall_eq]
      exact ⟨by linarith, by simp⟩
  | cons p'' ps ih =>
    rw [trapLoop] at h
    simp only [Option.bind_eq_bind, Option.bind_eq_some_iff] at h
    obtain ⟨s, hs, r, hr, he⟩ := h
    obtain ⟨rs, T'⟩ := r
    cases he
    obtain ⟨c1, c2, c3, c4, c5, c6, c7, c8, c9, c10, c11, c12, c13, c14⟩ := trap_curve hL hs
    obtain ⟨s', rest, e, g1, g2, g3, g4, g5, g6, g7, τ, g8, g9, g10, g11⟩ := ih hr
    subst e
    have hch : TChain (s.acc.piece 1)
        (s.con.piece :: s.dec.piece 1 :: (s' :: rest).flatMap (Trap.pieces 1)) :=
      ⟨c2.le, c3, c4, c5, c6.le, g1, g4⟩
    have hj : Joined Piece.g (s.acc.piece 1)
        (s.con.piece :: s.dec.piece 1 :: (s' :: rest).flatMap (Trap.pieces 1)) :=
      ⟨c9, c11, g2.trans c13.symm, g5⟩
    have hj' : Joined Piece.g' (s.acc.piece 1)
        (s.con.piece :: s.dec.piece 1 :: (s' :: rest).flatMap (Trap.pieces 1)) :=
      ⟨c10, c12, g3.trans c14.symm, g6⟩
    have el : ∀ (f : Piece n → ℝ → Fin n → ℝ), Joined f (s.acc.piece 1)
          (s.con.piece :: s.dec.piece 1 :: (s' :: rest).flatMap (Trap.pieces 1)) →
        ∀ x, s.dec.t1 ≤ x → pev f ((s :: s' :: rest).flatMap (Trap.pieces 1)) x =
          pev f ((s' :: rest).flatMap (Trap.pieces 1)) x := by
      intro f hf x hx
      have r1 := pev_rest f hch hf.1 (t := x) (by show s.acc.t1 ≤ x; linarith)
      have r2 := pev_rest f hch.2.2 hf.2.1 (t := x) (by show s.con.t1 ≤ x; linarith)
      have r3 := pev_rest f hch.2.2.2.2 hf.2.2.1 (t := x) hx
      exact r1.trans (r2.trans r3)
    refine ⟨s, s' :: rest, rfl, c1, c1 ▸ c7, c1 ▸ c8, hch, hj, hj', g7, t :: τ, ?_, ?_, rfl, ?_⟩
    · have hτ : ∀ x ∈ τ, s.dec.t1 ≤ x := by
        intro x hx
        cases τ with
        | nil => simp at hx
        | cons y τ =>
          simp only [List.head?_cons, Option.some.injEq] at g10
          rcases List.mem_cons.1 hx with rfl | hx
          · exact le_of_eq g10.symm
          · rw [← g10]; exact ((List.pairwise_cons.1 g9).1 x hx).le
      refine .cons ⟨?_, ?_⟩ ?_
      · refine (pev_first Piece.g (s.acc.piece 1) _ (t := t) ⟨le_of_eq c1, ?_⟩).trans (c1 ▸ c7)
        show t ≤ s.acc.t1
        linarith
      · refine (pev_first Piece.g' (s.acc.piece 1) _ (t := t) ⟨le_of_eq c1, ?_⟩).trans (c1 ▸ c8)
        show t ≤ s.acc.t1
        linarith
      · have k1 := fun x hx => el Piece.g hj x (hτ x hx)
        have k2 := fun x hx => el Piece.g' hj' x (hτ x hx)
        clear hτ g9 g10 g11
        generalize p' :: p'' :: ps = pl at g8
        induction g8 with
        | nil => exact .nil
        | cons ha _ ih2 =>
          exact .cons ⟨(k1 _ (by simp)).trans ha.1, (k2 _ (by simp)).trans ha.2⟩
            (ih2 (fun x hx => k1 x (List.mem_cons_of_mem _ hx))
              (fun x hx => k2 x (List.mem_cons_of_mem _ hx)))
    · refine List.pairwise_cons.2 ⟨?_, g9⟩
      intro x hx
      cases τ with
      | nil => simp at hx
      | cons y τ =>
        simp only [List.head?_cons, Option.some.injEq] at g10
        rcases List.mem_cons.1 hx with rfl | hx
        · linarith
        · have := (List.pairwise_cons.1 g9).1 x hx
          linarith
    · rw [List.getLast?_cons, g11]; rfl

end Verif.Ct
