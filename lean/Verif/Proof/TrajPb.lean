import Verif.Proof.TrajGen
import Mathlib.Tactic.Positivity

/-! # Helper lemmas on the parabolic blend generator -/

namespace Verif.Ct

open Set

variable {n : Nat}

theorem dblMin_pos : 0 < dblMin := by unfold dblMin; positivity

theorem dblMax_pos : 0 < dblMax := by
  unfold dblMax
  have : (1 : ℝ) / 2 ^ 52 ≤ 1 := by norm_num
  have : (0 : ℝ) < 2 - 1 / 2 ^ 52 := by linarith
  positivity

theorem pbLimit_pos (a b lo hi : Fin n → ℝ) : 0 < pbLimit a b lo hi :=
  lt_of_lt_of_le dblMin_pos (le_maxOver _ _)

/-- What a list entering a round satisfies: the last velocity is zero, and every duration is at
least what the velocity limits ask for. -/
def PbIn (L : Limits n) : List (Pb n) → Prop
  | [] => True
  | [c] => c.dq = (fun _ => 0) ∧ 0 < c.dt
  | c :: m :: cs => pbLimit m.q c.q L.vmin L.vmax ≤ c.dt ∧ PbIn L (m :: cs)

theorem PbIn.pos {L : Limits n} {cs : List (Pb n)} (h : PbIn L cs) : ∀ c ∈ cs, 0 < c.dt := by
  induction cs with
  | nil => simp
  | cons c cs ih =>
    cases cs with
    | nil => simpa using h.2
    | cons m cs =>
      intro x hx
      rcases List.mem_cons.1 hx with rfl | hx
      · exact lt_of_lt_of_le (pbLimit_pos _ _ _ _) h.1
      · exact ih h.2 x hx

theorem pbInit_in (L : Limits n) (ps : List (Fin n → ℝ)) : PbIn L (pbInit L ps) := by
  induction ps with
  | nil => trivial
  | cons p ps ih =>
    cases ps with
    | nil => exact ⟨rfl, dblMax_pos⟩
    | cons p' ps => exact ⟨le_refl _, ih⟩

theorem pbInit_q (L : Limits n) (ps : List (Fin n → ℝ)) : (pbInit L ps).map Pb.q = ps := by
  induction ps with
  | nil => rfl
  | cons p ps ih => simp only [pbInit, List.map_cons, ih, pbNew]

theorem pbUpdate_q (L : Limits n) (p : Option (Pb n)) (c : Pb n) (nx : Option (Pb n)) :
    (pbUpdate L p c nx).q = c.q ∧ (pbUpdate L p c nx).dt = c.dt := ⟨rfl, rfl⟩

theorem pbPass_q (L : Limits n) (p : Option (Pb n)) (cs : List (Pb n)) :
    (pbPass L p cs).map Pb.q = cs.map Pb.q := by
  induction cs generalizing p with
  | nil => rfl
  | cons c cs ih => simp only [pbPass, List.map_cons, ih, (pbUpdate_q L p c _).1]

theorem pbPass_in {L : Limits n} {cs : List (Pb n)} (h : PbIn L cs) (p : Option (Pb n)) :
    PbIn L (pbPass L p cs) := by
  induction cs generalizing p with
  | nil => trivial
  | cons c cs ih =>
    cases cs with
    | nil => exact ⟨h.1, h.2⟩
    | cons m cs => exact ⟨h.1, ih h.2 _⟩

/-- What a list leaving the update pass satisfies; `p` is the predecessor. -/
def PbOut (L : Limits n) : Option (Pb n) → List (Pb n) → Prop
  | _, [] => True
  | p, c :: cs =>
    c.b = pbLimit c.dq (pdqOf p) L.amin L.amax ∧
    (∀ i, c.ddq i = (c.dq i - pdqOf p i) / c.b) ∧
    c.t = (match p with | some p => p.t + p.dt | none => c.b / 2) ∧
    (match cs.head? with
      | some m => ∀ i, c.dq i = (m.q i - c.q i) / c.dt
      | none => ∀ i, c.dq i = 0) ∧
    PbOut L (some c) cs

theorem pbPass_head_q (L : Limits n) (p : Option (Pb n)) (cs : List (Pb n)) :
    (pbPass L p cs).head?.map Pb.q = cs.head?.map Pb.q := by
  cases cs with
  | nil => rfl
  | cons c cs => rfl

theorem pbPass_out {L : Limits n} {cs : List (Pb n)} (h : PbIn L cs) (p : Option (Pb n)) :
    PbOut L p (pbPass L p cs) := by
  induction cs generalizing p with
  | nil => trivial
  | cons c cs ih =>
    cases cs with
    | nil =>
      refine ⟨?_, ?_, ?_, ?_, trivial⟩
      · cases p <;> rfl
      · cases p <;> exact fun _ => rfl
      · cases p <;> rfl
      · exact fun i => congrFun h.1 i
    | cons m cs =>
      refine ⟨?_, ?_, ?_, ?_, ih h.2 _⟩
      · cases p <;> rfl
      · cases p <;> exact fun _ => rfl
      · cases p <;> rfl
      · exact fun i => rfl

/-- Every blend time is positive. -/
theorem PbOut.bpos {L : Limits n} {p : Option (Pb n)} {cs : List (Pb n)} (h : PbOut L p cs) :
    ∀ c ∈ cs, 0 < c.b := by
  induction cs generalizing p with
  | nil => simp
  | cons c cs ih =>
    intro x hx
    rcases List.mem_cons.1 hx with rfl | hx
    · rw [h.1]; exact pbLimit_pos _ _ _ _
    · exact ih h.2.2.2.2 x hx

/-! ## The factors -/

theorem pbFactor_range (p : Option (Pb n)) (c : Pb n) (nx : Option (Pb n)) (hp : ∀ x ∈ p, 0 < x.dt)
    (hc : 0 < c.dt) (hb : 0 < c.b) : 0 < pbFactor p c nx ∧ pbFactor p c nx ≤ 1 := by
  unfold pbFactor
  split
  · rename_i ho
    have h1 : 0 < (p.map (·.dt)).getD dblMax := by
      cases p with
      | none => exact dblMax_pos
      | some x => exact hp x rfl
    have h2 : 0 < min ((p.map (·.dt)).getD dblMax) c.dt := lt_min h1 hc
    refine ⟨Real.sqrt_pos.2 (div_pos h2 hb), ?_⟩
    rw [Real.sqrt_le_iff, one_pow, div_le_one hb]
    refine ⟨zero_le_one, ?_⟩
    unfold pbOverlap at ho
    rw [Bool.or_eq_true] at ho
    rcases ho with ho | ho
    · cases p with
      | none => simp at ho
      | some x =>
        simp only [decide_eq_true_eq] at ho
        exact (min_le_left _ _).trans ho.1.le
    · cases nx with
      | none => simp at ho
      | some x =>
        simp only [decide_eq_true_eq] at ho
        exact (min_le_right _ _).trans ho.1.le
  · exact ⟨one_pos, le_refl _⟩

theorem pbCheck_range (p : Option (Pb n)) (cs : List (Pb n)) (hp : ∀ x ∈ p, 0 < x.dt)
    (hc : ∀ c ∈ cs, 0 < c.dt) (hb : ∀ c ∈ cs, 0 < c.b) :
    (pbCheck p cs).1.length = cs.length ∧ ∀ f ∈ (pbCheck p cs).1, 0 < f ∧ f ≤ 1 := by
  induction cs generalizing p with
  | nil => simp [pbCheck]
  | cons c cs ih =>
    have := ih (some c) (by simpa using hc c (by simp)) (fun x hx => hc x (List.mem_cons_of_mem _ hx))
      (fun x hx => hb x (List.mem_cons_of_mem _ hx))
    refine ⟨by simp [pbCheck, this.1], ?_⟩
    intro f hf
    simp only [pbCheck, List.mem_cons] at hf
    rcases hf with rfl | hf
    · exact pbFactor_range p c _ hp (hc c (by simp)) (hb c (by simp))
    · exact this.2 f hf

theorem pbScale_q (cs : List (Pb n)) (fs : List ℝ) : (pbScale cs fs).map Pb.q = cs.map Pb.q := by
  induction cs generalizing fs with
  | nil => cases fs <;> rfl
  | cons c cs ih =>
    cases cs with
    | nil => cases fs <;> rfl
    | cons m cs =>
      cases fs with
      | nil => rfl
      | cons f fs =>
        cases fs with
        | nil => rfl
        | cons f' fs => rw [pbScale, List.map_cons, ih]; rfl

theorem pbScale_in {L : Limits n} {cs : List (Pb n)} (h : PbIn L cs) (fs : List ℝ)
    (hf : ∀ f ∈ fs, 0 < f ∧ f ≤ 1) : PbIn L (pbScale cs fs) := by
  induction cs generalizing fs with
  | nil => cases fs <;> trivial
  | cons c cs ih =>
    cases cs with
    | nil => cases fs <;> exact h
    | cons m cs =>
      cases fs with
      | nil => exact h
      | cons f fs =>
        cases fs with
        | nil => exact h
        | cons f' fs =>
          have ih := ih h.2 (f' :: fs) (fun x hx => hf x (List.mem_cons_of_mem _ hx))
          have hq := pbScale_q (m :: cs) (f' :: fs)
          rw [pbScale]
          generalize pbScale (m :: cs) (f' :: fs) = r at ih hq
          cases r with
          | nil => simp at hq
          | cons m' r =>
            simp only [List.map_cons, List.cons.injEq] at hq
            refine ⟨?_, ih⟩
            rw [hq.1]
            obtain ⟨a1, a2⟩ := hf f (by simp)
            obtain ⟨b1, b2⟩ := hf f' (by simp)
            have h0 : 0 < min f' f := lt_min b1 a1
            have h1 : min f' f ≤ 1 := (min_le_left _ _).trans b2
            have hd : 0 < c.dt := PbIn.pos h c (by simp)
            show pbLimit m.q c.q L.vmin L.vmax ≤ c.dt / min f' f
            refine h.1.trans ?_
            rw [le_div_iff₀ h0]
            nlinarith

theorem pbCheck_done {p : Option (Pb n)} {cs : List (Pb n)} (h : (pbCheck p cs).2 = false) :
    ∀ f ∈ (pbCheck p cs).1, f = 1 := by
  induction cs generalizing p with
  | nil => simp [pbCheck]
  | cons c cs ih =>
    simp only [pbCheck, Bool.or_eq_false_iff] at h
    intro f hf
    simp only [pbCheck, List.mem_cons] at hf
    rcases hf with rfl | hf
    · simp [pbFactor, h.1]
    · exact ih h.2 f hf

theorem pbScale_one (cs : List (Pb n)) (fs : List ℝ) (h : ∀ f ∈ fs, f = 1) : pbScale cs fs = cs := by
  induction cs generalizing fs with
  | nil => cases fs <;> rfl
  | cons c cs ih =>
    cases cs with
    | nil => cases fs <;> rfl
    | cons m cs =>
      cases fs with
      | nil => rfl
      | cons f fs =>
        cases fs with
        | nil => rfl
        | cons f' fs =>
          rw [pbScale, ih _ fun x hx => h x (List.mem_cons_of_mem _ hx), h f (by simp),
            h f' (by simp), min_self, div_one]

/-- Blends of neighbours do not overlap. -/
def NoOverlap : List (Pb n) → Prop
  | [] => True
  | [_] => True
  | c :: m :: cs => c.b / 2 + m.b / 2 ≤ c.dt ∧ NoOverlap (m :: cs)

theorem pbCheck_noOverlap {p : Option (Pb n)} {cs : List (Pb n)} (h : (pbCheck p cs).2 = false) :
    NoOverlap cs := by
  induction cs generalizing p with
  | nil => trivial
  | cons c cs ih =>
    cases cs with
    | nil => trivial
    | cons m cs =>
      have h' := h
      simp only [pbCheck, Bool.or_eq_false_iff] at h
      have hr : (pbCheck (some c) (m :: cs)).2 = false := by
        simp only [pbCheck, Bool.or_eq_false_iff]; exact h.2
      refine ⟨?_, ih hr⟩
      have o1 := h.1
      have o2 := h.2.1
      unfold pbOverlap at o1 o2
      rw [Bool.or_eq_false_iff] at o1 o2
      have o1 := o1.2
      have o2 := o2.1
      simp only [List.head?_cons, decide_eq_false_iff_not, not_and, not_lt] at o1 o2
      by_cases h1 : c.dt < c.b
      · have := o1 h1; linarith
      · by_cases h2 : c.dt < m.b
        · have := o2 h2; linarith
        · push Not at h1 h2; linarith

/-- The list with which the loop finishes. -/
theorem pbLoop_spec {L : Limits n} (fuel : Nat) {cs out : List (Pb n)} (h : PbIn L cs)
    (hl : pbLoop L fuel cs = some out) :
    PbIn L out ∧ PbOut L none out ∧ NoOverlap out ∧ out.map Pb.q = cs.map Pb.q := by
  induction fuel generalizing cs with
  | zero => simp [pbLoop] at hl
  | succ fuel ih =>
    simp only [pbLoop] at hl
    have h1 := pbPass_in h none
    have h2 := pbPass_out h none
    have hq := pbPass_q L none cs
    generalize pbPass L none cs = ds at hl h1 h2 hq
    split at hl
    · have hr := pbCheck_range none ds (by simp) h1.pos h2.bpos
      obtain ⟨a1, a2, a3, a4⟩ := ih (pbScale_in h1 _ hr.2) hl
      exact ⟨a1, a2, a3, by rw [a4, pbScale_q, hq]⟩
    · rename_i hf
      have hf : (pbCheck none ds).2 = false := by simpa using hf
      rw [pbScale_one _ _ (pbCheck_done hf)] at hl
      cases hl
      exact ⟨h1, h2, pbCheck_noOverlap hf, hq⟩

/-! ## The curve -/

/-- All pieces of a blend list. -/
noncomputable def pbPieces : Option (Pb n) → List (Pb n) → List (List (Piece n))
  | _, [] => []
  | p, c :: cs => Pb.pieces p c cs.head? :: pbPieces (some c) cs

theorem pbSegs_covers (p : Option (Pb n)) (cs : List (Pb n)) :
    List.Forall₂ Covers (pbSegs p cs) (pbPieces p cs) := by
  induction cs generalizing p with
  | nil => exact .nil
  | cons c cs ih => exact .cons (pbEval_covers p c _) (ih _)

/-- Setting the last duration does not change the segments. -/
theorem pbLast_segs (p : Option (Pb n)) (cs : List (Pb n)) :
    pbSegs p (pbLast cs) = pbSegs p cs := by
  induction cs generalizing p with
  | nil => rfl
  | cons c cs ih =>
    cases cs with
    | nil => rfl
    | cons m cs =>
      have hh : ∃ m' r, pbLast (m :: cs) = m' :: r ∧ m'.b = m.b ∧ (cs ≠ [] → m' = m) := by
        cases cs with
        | nil => exact ⟨_, _, rfl, rfl, by simp⟩
        | cons x xs => exact ⟨_, _, rfl, rfl, fun _ => rfl⟩
      obtain ⟨m', r, e, hb, hm⟩ := hh
      have ih := ih (some c)
      simp only [pbLast, pbSegs]
      rw [ih]
      rw [e]
      congr 1
      funext st t
      simp only [pbEval, List.head?_cons, hb]

/-- The rest of the curve after the blend of `c`. -/
noncomputable def pbRest (c : Pb n) : List (Pb n) → List (Piece n)
  | [] => []
  | m :: cs => c.line m :: m.blend (some c) :: pbRest m cs

theorem pbPieces_flatten (p : Option (Pb n)) (c : Pb n) (cs : List (Pb n)) :
    (pbPieces p (c :: cs)).flatten = c.blend p :: pbRest c cs := by
  induction cs generalizing p c with
  | nil => rfl
  | cons m cs ih =>
    have := ih (some c) m
    rw [pbPieces, List.flatten_cons, this]
    rfl

/-- Time at which a list of segments ends. -/
noncomputable def pbEnd (c : Pb n) : List (Pb n) → ℝ
  | [] => c.t + c.b / 2
  | m :: cs => pbEnd m cs

theorem pb_curve {L : Limits n} (cs : List (Pb n)) {p : Option (Pb n)} {c : Pb n}
    (hi : PbIn L (c :: cs)) (ho : PbOut L p (c :: cs)) (hn : NoOverlap (c :: cs)) :
    TChain (c.blend p) (pbRest c cs) ∧ Joined Piece.g (c.blend p) (pbRest c cs) ∧
      Joined Piece.g' (c.blend p) (pbRest c cs) ∧
      stop (c.blend p) (pbRest c cs) = pbEnd c cs := by
  induction cs generalizing p c with
  | nil =>
    have := ho.bpos c (by simp)
    refine ⟨?_, trivial, trivial, rfl⟩
    show c.t - c.b / 2 ≤ c.t + c.b / 2
    linarith
  | cons m cs ih =>
    have hb := ho.bpos c (by simp)
    have hdt := hi.pos c (by simp)
    obtain ⟨o1, o2, o3, o4, o5⟩ := ho
    obtain ⟨i1, i2, i3, i4⟩ := ih hi.2 o5 hn.2
    have hov := hn.1
    have hmt : m.t = c.t + c.dt := o5.2.2.1
    simp only [List.head?_cons] at o4
    refine ⟨⟨?_, rfl, ?_, ?_, i1⟩, ⟨?_, ?_, i2⟩, ⟨?_, ?_, i3⟩, i4⟩
    · show c.t - c.b / 2 ≤ c.t + c.b / 2
      linarith
    · show c.t + c.b / 2 ≤ c.t + c.dt - m.b / 2
      linarith
    · show m.t - m.b / 2 = c.t + c.dt - m.b / 2
      linarith
    · funext i
      simp only [Pb.line, Pb.blend, o2 i]
      field_simp
      ring
    · funext i
      simp only [Pb.line, Pb.blend, pdqOf, hmt, o4 i]
      field_simp
      ring
    · funext i
      simp only [Pb.line, Pb.blend, o2 i]
      field_simp
      ring
    · funext i
      simp only [Pb.line, Pb.blend, pdqOf, hmt]
      ring

/-- Every piece of the curve is a blend or a line of the list. -/
theorem pbRest_mem {P : Piece n → Prop} (cs : List (Pb n)) (c : Pb n)
    (h1 : ∀ x m : Pb n, P (x.line m)) (h2 : ∀ (x y : Pb n), P (y.blend (some x))) :
    ∀ r ∈ pbRest c cs, P r := by
  induction cs generalizing c with
  | nil => simp [pbRest]
  | cons m cs ih =>
    intro r hr
    simp only [pbRest, List.mem_cons] at hr
    rcases hr with rfl | rfl | hr
    · exact h1 _ _
    · exact h2 _ _
    · exact ih m r hr

/-- Velocities of the linear parts, and accelerations of the blends, are within the limits. -/
theorem pb_within {L : Limits n} (hL : L.Ok) (cs : List (Pb n)) {p : Option (Pb n)}
    (hi : PbIn L cs) (ho : PbOut L p cs) :
    ∀ c ∈ cs, ∀ i, L.vmin i ≤ c.dq i ∧ c.dq i ≤ L.vmax i ∧ L.amin i ≤ c.ddq i ∧
      c.ddq i ≤ L.amax i := by
  induction cs generalizing p with
  | nil => simp
  | cons c cs ih =>
    intro x hx i
    obtain ⟨hv, hV, ha, hA⟩ := hL i
    rcases List.mem_cons.1 hx with rfl | hx
    · have hb := ho.bpos x (by simp)
      have hdt := hi.pos x (by simp)
      obtain ⟨o1, o2, o3, o4, o5⟩ := ho
      have acc : L.amin i ≤ x.ddq i ∧ x.ddq i ≤ L.amax i := by
        rw [o2 i]
        refine within_limits hb ha hA ?_
        rw [o1]
        exact maxOver_ge dblMin (fun i => if x.dq i - pdqOf p i < 0
          then (x.dq i - pdqOf p i) / L.amin i else (x.dq i - pdqOf p i) / L.amax i) i
      cases cs with
      | nil =>
        have : x.dq i = 0 := o4 i
        rw [this]
        exact ⟨hv.le, hV.le, acc.1, acc.2⟩
      | cons m cs =>
        have e : x.dq i = (m.q i - x.q i) / x.dt := o4 i
        have := within_limits hdt hv hV (d := m.q i - x.q i) (le_trans
          (maxOver_ge dblMin (fun i => if m.q i - x.q i < 0
          then (m.q i - x.q i) / L.vmin i else (m.q i - x.q i) / L.vmax i) i) hi.1)
        rw [← e] at this
        exact ⟨this.1, this.2, acc.1, acc.2⟩
    · have hi' : PbIn L cs := by
        cases cs with
        | nil => trivial
        | cons m cs => exact hi.2
      exact ih hi' ho.2.2.2.2 x hx i

/-- Inside a blend the velocity is between the velocities before and after. -/
theorem blend_between (p : Option (Pb n)) (c : Pb n) (hb : 0 < c.b)
    (h : ∀ i, c.ddq i = (c.dq i - pdqOf p i) / c.b) {t : ℝ} (ht : c.t - c.b / 2 ≤ t ∧ t ≤ c.t + c.b / 2)
    (i : Fin n) {lo hi : ℝ} (h1 : lo ≤ pdqOf p i ∧ pdqOf p i ≤ hi) (h2 : lo ≤ c.dq i ∧ c.dq i ≤ hi) :
    lo ≤ (c.blend p).g' t i ∧ (c.blend p).g' t i ≤ hi := by
  simp only [Pb.blend, h i]
  generalize hx : ((t - c.t) + c.b / 2) / c.b = x
  have hx0 : 0 ≤ x := by rw [← hx]; exact div_nonneg (by linarith [ht.1]) hb.le
  have hx1 : x ≤ 1 := by rw [← hx, div_le_one hb]; linarith [ht.2]
  have e : pdqOf p i + (c.dq i - pdqOf p i) / c.b * ((t - c.t) + c.b / 2) =
      (1 - x) * pdqOf p i + x * c.dq i := by
    rw [← hx]; field_simp; ring
  rw [e]
  constructor
  · nlinarith [mul_le_mul_of_nonneg_left h1.1 (sub_nonneg.2 hx1), mul_le_mul_of_nonneg_left h2.1 hx0]
  · nlinarith [mul_le_mul_of_nonneg_left h1.2 (sub_nonneg.2 hx1), mul_le_mul_of_nonneg_left h2.2 hx0]

/-- The whole curve keeps the velocity limits. -/
theorem pb_vel {L : Limits n} (hL : L.Ok) (cs : List (Pb n)) {p : Option (Pb n)} {c : Pb n}
    (hi : PbIn L (c :: cs)) (ho : PbOut L p (c :: cs))
    (hp : ∀ i, L.vmin i ≤ pdqOf p i ∧ pdqOf p i ≤ L.vmax i) :
    ∀ r ∈ c.blend p :: pbRest c cs, ∀ t, r.a ≤ t ∧ t ≤ r.b → ∀ i,
      L.vmin i ≤ r.g' t i ∧ r.g' t i ≤ L.vmax i := by
  induction cs generalizing p c with
  | nil =>
    intro r hr t ht i
    obtain rfl : r = c.blend p := by simpa [pbRest] using hr
    have w := pb_within hL _ hi ho c (by simp) i
    exact blend_between p c (ho.bpos c (by simp)) ho.2.1 ht i (hp i) ⟨w.1, w.2.1⟩
  | cons m cs ih =>
    intro r hr t ht i
    have w := fun i => pb_within hL _ hi ho c (by simp) i
    simp only [pbRest, List.mem_cons] at hr
    rcases hr with rfl | rfl | hr
    · exact blend_between p c (ho.bpos c (by simp)) ho.2.1 ht i (hp i) ⟨(w i).1, (w i).2.1⟩
    · exact ⟨(w i).1, (w i).2.1⟩
    · exact ih hi.2 ho.2.2.2.2 (p := some c) (fun i => ⟨(w i).1, (w i).2.1⟩) r (by simpa using hr)
        t ht i

/-- End of the curve: at rest at the last way point. -/
theorem pb_last {L : Limits n} (cs : List (Pb n)) {p : Option (Pb n)} {c : Pb n}
    (ho : PbOut L p (c :: cs)) :
    ∃ l, (c :: cs).getLast? = some l ∧
      (lastP (c.blend p) (pbRest c cs)).g (pbEnd c cs) = l.q ∧
      (lastP (c.blend p) (pbRest c cs)).g' (pbEnd c cs) = 0 := by
  induction cs generalizing p c with
  | nil =>
    have hb := ho.bpos c (by simp)
    have hd : ∀ i, c.dq i = 0 := ho.2.2.2.1
    refine ⟨c, rfl, ?_, ?_⟩ <;> funext i <;>
      simp only [lastP, pbRest, pbEnd, Pb.blend, ho.2.1 i, hd i, Pi.zero_apply] <;>
      field_simp <;> ring
  | cons m cs ih =>
    obtain ⟨l, h1, h2, h3⟩ := ih ho.2.2.2.2
    exact ⟨l, by rw [List.getLast?_cons_cons]; exact h1, h2, h3⟩

/-- The recorded duration is the end of the curve. -/
theorem pb_duration {L : Limits n} (cs : List (Pb n)) {p : Option (Pb n)} {c : Pb n} (x : ℝ)
    (ho : PbOut L p (c :: cs)) :
    ∃ l, (pbLast (c :: cs)).getLast? = some l ∧
      (pbLast (c :: cs)).foldl (fun d c => d + c.dt) x + l.b / 2 = x - c.t + pbEnd c cs := by
  induction cs generalizing p c x with
  | nil =>
    refine ⟨{ c with dt := 0 }, rfl, ?_⟩
    simp only [pbLast, pbEnd, List.foldl_cons, List.foldl_nil]
    ring
  | cons m cs ih =>
    obtain ⟨l, h1, h2⟩ := ih (x + c.dt) ho.2.2.2.2
    have hm : m.t = c.t + c.dt := ho.2.2.2.2.2.2.1
    refine ⟨l, ?_, ?_⟩
    · rw [pbLast, List.getLast?_cons, h1]; rfl
    · rw [pbLast, List.foldl_cons, h2, pbEnd, hm]
      ring

theorem pbLast_head (c : Pb n) (cs : List (Pb n)) :
    ∃ c', (pbLast (c :: cs)).head? = some c' ∧ c'.b = c.b := by
  cases cs with
  | nil => exact ⟨_, rfl, rfl⟩
  | cons m cs => exact ⟨_, rfl, rfl⟩

/-- Blends of neighbours are disjoint in time, whatever the last duration is set to. -/
theorem pb_disjoint {L : Limits n} (cs : List (Pb n)) {p : Option (Pb n)}
    (ho : PbOut L p cs) (hn : NoOverlap cs) :
    (pbLast cs).IsChain fun c m => c.t + c.b / 2 ≤ m.t - m.b / 2 := by
  induction cs generalizing p with
  | nil => exact .nil
  | cons c cs ih =>
    cases cs with
    | nil => exact List.isChain_singleton _
    | cons m cs =>
      have hr := ih ho.2.2.2.2 hn.2
      have hm : m.t = c.t + c.dt := ho.2.2.2.2.2.2.1
      have h := hn.1
      rw [pbLast]
      cases cs with
      | nil =>
        refine .cons_cons ?_ hr
        show c.t + c.b / 2 ≤ m.t - m.b / 2
        linarith
      | cons m' cs =>
        refine .cons_cons ?_ hr
        show c.t + c.b / 2 ≤ m.t - m.b / 2
        linarith

theorem pbLast_acc {L : Limits n} {cs : List (Pb n)}
    (h : ∀ c ∈ cs, ∀ i, L.amin i ≤ c.ddq i ∧ c.ddq i ≤ L.amax i) :
    ∀ c ∈ pbLast cs, ∀ i, L.amin i ≤ c.ddq i ∧ c.ddq i ≤ L.amax i := by
  induction cs with
  | nil => simp [pbLast]
  | cons c cs ih =>
    cases cs with
    | nil =>
      intro x hx i
      obtain rfl : x = { c with dt := 0 } := by simpa [pbLast] using hx
      exact h c (by simp) i
    | cons m cs =>
      intro x hx i
      rw [pbLast, List.mem_cons] at hx
      rcases hx with rfl | hx
      · exact h x (by simp) i
      · exact ih (fun y hy => h y (List.mem_cons_of_mem _ hy)) x hx i

end Verif.Ct
