import Verif.Model.Opt

/-!
# C59: linear program bounds are classified correctly
-/

namespace Verif.Opt

/-- The feasible interval described by a pair of bounds: an infinity means unbounded. -/
def Within (l u : EReal) (x : ℝ) : Prop :=
  ((l = ⊥ ∨ l = ⊤) ∨ l ≤ x) ∧ ((u = ⊥ ∨ u = ⊤) ∨ (x : EReal) ≤ u)

/-- A value that a double can take. -/
def Rep (x : ℝ) : Prop := -dblMax ≤ x ∧ x ≤ dblMax

theorem lb_or {l : EReal} {x : ℝ} (hx : Rep x) (h : ¬ isLb l) : (l = ⊥ ∨ l = ⊤) ∨ l ≤ x := by
  by_cases hf : isFinite l
  · right
    have h1 : ¬ ((-dblMax : ℝ) : EReal) < l := fun h2 => h ⟨h2, hf⟩
    exact (not_lt.1 h1).trans (by exact_mod_cast hx.1)
  · left
    unfold isFinite at hf
    tauto

theorem ub_or {u : EReal} {x : ℝ} (hx : Rep x) (h : ¬ isUb u) :
    (u = ⊥ ∨ u = ⊤) ∨ (x : EReal) ≤ u := by
  by_cases hf : isFinite u
  · right
    have h1 : ¬ u < ((dblMax : ℝ) : EReal) := fun h2 => h ⟨h2, hf⟩
    exact le_trans (by exact_mod_cast hx.2) (not_lt.1 h1)
  · left
    unfold isFinite at hf
    tauto

theorem fin_iff {l : EReal} (h : isFinite l) : ¬ (l = ⊥ ∨ l = ⊤) := by
  unfold isFinite at h
  tauto

/-- **C59**, GLPK: every pair of bounds has a type, no assertion fails, and GLPK allows exactly the
described interval. -/
theorem C59_glpk (l u : EReal) : ∃ t, boundsType l u = some t ∧
    ∀ x, Rep x → (glpAllows t l u x ↔ Within l u x) := by
  unfold boundsType
  by_cases he : isEq l u
  · refine ⟨.fx, by rw [if_pos he], fun x _ => ?_⟩
    obtain ⟨hf, rfl⟩ := he
    simp only [glpAllows, Within, fin_iff hf, false_or]
    constructor
    · intro h; exact ⟨h.ge, h.le⟩
    · intro h; exact le_antisymm h.2 h.1
  rw [if_neg he]
  by_cases hl : isLb l <;> by_cases hu : isUb u
  · refine ⟨.db, ?_, fun x _ => ?_⟩
    · rw [if_neg (by tauto), if_neg (by tauto), if_pos ⟨hl, hu⟩, if_pos ⟨hu.1, hl.1⟩]
    · simp only [glpAllows, Within, fin_iff hl.2, fin_iff hu.2, false_or]
  · refine ⟨.lo, ?_, fun x hx => ?_⟩
    · rw [if_neg (by tauto), if_pos ⟨hl, hu⟩, if_pos hl.1]
    · simp only [glpAllows, Within, fin_iff hl.2, false_or, ub_or hx hu, and_true]
  · refine ⟨.up, ?_, fun x hx => ?_⟩
    · rw [if_pos ⟨hl, hu⟩, if_pos hu.1]
    · simp only [glpAllows, Within, fin_iff hu.2, false_or, lb_or hx hl, true_and]
  · refine ⟨.fr, ?_, fun x hx => ?_⟩
    · rw [if_neg (by tauto), if_neg (by tauto), if_neg (by tauto), if_pos ⟨hl, hu⟩]
    · simp only [glpAllows, Within, lb_or hx hl, ub_or hx hu, and_true]

/-- **C59**, GLPK, all rows or columns of a problem: the loop succeeds, sets each one's interval and
leaves the others alone. -/
theorem C59_glpk_all (lower upper : Nat → EReal) (n : Nat) (bnd : Nat → GlpType × EReal × EReal) :
    ∃ b, glpSetBnd lower upper n 0 bnd = some b ∧
      (∀ j, j < n → ∀ x, Rep x →
        (glpAllows (b j).1 (b j).2.1 (b j).2.2 x ↔ Within (lower j) (upper j) x)) ∧
      ∀ j, n ≤ j → b j = bnd j := by
  have key : ∀ (n i : Nat) (bnd : Nat → GlpType × EReal × EReal),
      ∃ b, glpSetBnd lower upper n i bnd = some b ∧
      (∀ j, i ≤ j → j < i + n → ∀ x, Rep x →
        (glpAllows (b j).1 (b j).2.1 (b j).2.2 x ↔ Within (lower j) (upper j) x)) ∧
      ∀ j, j < i ∨ i + n ≤ j → b j = bnd j := by
    intro n
    induction n with
    | zero => intro i bnd; exact ⟨bnd, rfl, fun j h1 h2 => by omega, fun _ _ => rfl⟩
    | succ n ih =>
      intro i bnd
      obtain ⟨t, ht, hx⟩ := C59_glpk (lower i) (upper i)
      obtain ⟨b, hb, h1, h2⟩ := ih (i + 1) (Function.update bnd i (t, lower i, upper i))
      refine ⟨b, by rw [glpSetBnd, ht]; exact hb, fun j h3 h4 => ?_, fun j h3 => ?_⟩
      · rcases Nat.eq_or_lt_of_le h3 with rfl | h5
        · rw [h2 i (Or.inl (by omega)), Function.update_self]
          exact hx
        · exact h1 j h5 (by omega)
      · rw [h2 j (by omega), Function.update_of_ne (by omega)]
  obtain ⟨b, h1, h2, h3⟩ := key n 0 bnd
  exact ⟨b, h1, fun j hj => h2 j (by omega) (by omega), fun j hj => h3 j (by omega)⟩

/-- **C59**, CLP (general matrices). -/
theorem C59_clp (l u : EReal) (x : ℝ) (hx : Rep x) :
    clpAllows (clpBounds l u) x ↔ Within l u x := by
  unfold clpAllows clpBounds Within
  apply and_congr
  · by_cases h : isFinite l
    · simp only [if_pos h, fin_iff h, false_or]
      refine ⟨fun h1 => ?_, fun h1 _ => h1⟩
      by_cases h2 : ((-dblMax : ℝ) : EReal) < l
      · exact h1 h2
      · exact (not_lt.1 h2).trans (by exact_mod_cast hx.1)
    · have : l = ⊥ ∨ l = ⊤ := by unfold isFinite at h; tauto
      simp [if_neg h, this]
  · by_cases h : isFinite u
    · simp only [if_pos h, fin_iff h, false_or]
      refine ⟨fun h1 => ?_, fun h1 _ => h1⟩
      by_cases h2 : u < ((dblMax : ℝ) : EReal)
      · exact h1 h2
      · exact le_trans (by exact_mod_cast hx.2) (not_lt.1 h2)
    · have : u = ⊥ ∨ u = ⊤ := by unfold isFinite at h; tauto
      simp [if_neg h, this]

/-- **C59**, CLP, all rows or columns. -/
theorem C59_clp_all (lower upper : Nat → EReal) (n : Nat) (bnd : Nat → EReal × EReal) :
    (∀ j, j < n → ∀ x, Rep x →
      (clpAllows (clpSetBnd lower upper n 0 bnd j) x ↔ Within (lower j) (upper j) x)) ∧
    ∀ j, n ≤ j → clpSetBnd lower upper n 0 bnd j = bnd j := by
  have key : ∀ (n i : Nat) (bnd : Nat → EReal × EReal),
      (∀ j, i ≤ j → j < i + n →
        clpSetBnd lower upper n i bnd j = clpBounds (lower j) (upper j)) ∧
      ∀ j, j < i ∨ i + n ≤ j → clpSetBnd lower upper n i bnd j = bnd j := by
    intro n
    induction n with
    | zero => intro i bnd; exact ⟨fun j h1 h2 => by omega, fun _ _ => rfl⟩
    | succ n ih =>
      intro i bnd
      obtain ⟨h1, h2⟩ := ih (i + 1) (Function.update bnd i (clpBounds (lower i) (upper i)))
      refine ⟨fun j h3 h4 => ?_, fun j h3 => ?_⟩
      · rcases Nat.eq_or_lt_of_le h3 with rfl | h5
        · rw [clpSetBnd, h2 i (Or.inl (by omega)), Function.update_self]
        · exact h1 j h5 (by omega)
      · rw [clpSetBnd, h2 j (by omega), Function.update_of_ne (by omega)]
  obtain ⟨h1, h2⟩ := key n 0 bnd
  exact ⟨fun j hj x hx => by rw [h1 j (by omega) (by omega)]; exact C59_clp _ _ x hx,
    fun j hj => h2 j (by omega)⟩

/-- **C59**, bounds that are passed on as they are.  Missing: a lower bound `+∞` or an upper bound
`-∞`, which the solver takes literally. -/
theorem C59_raw_partial (l u : EReal) (hl : l ≠ ⊤) (hu : u ≠ ⊥) (x : ℝ) :
    rawAllows l u x ↔ Within l u x := by
  unfold rawAllows Within
  apply and_congr
  · simp only [hl, or_false]
    exact ⟨Or.inr, fun h => h.elim (fun h => by rw [h]; exact bot_le) id⟩
  · simp only [hu, false_or]
    exact ⟨Or.inr, fun h => h.elim (fun h => by rw [h]; exact le_top) id⟩

/-! ## LP-Solve -/

theorem setRow_append (done rest : List LpRow) (r : LpRow) (t : LpType) (coef : Nat → ℝ)
    (v : EReal) : setRow (done ++ r :: rest) t coef (done.length + 1) v =
      some (done ++ ⟨coef, t, v⟩ :: rest) := by
  rw [setRow, if_pos (by simp)]
  simp

/-- **C59**, LP-Solve with a general matrix, when every row has a bound and no row is an equality:
the constraints are exactly the described ones.  Missing: rows without bounds
(`C59_violates_lpsolve_free`) and equalities (`C59_violates_lpsolve_eq`). -/
theorem C59_lpsolve_gm_partial (m n : Nat) (A : Nat → Nat → ℝ) (lower upper : Nat → EReal)
    (hb : ∀ i, i < m → isLb (lower i) ∨ isUb (upper i))
    (he : ∀ i, i < m → lower i ≠ upper i) :
    ∃ rows, lpsolveGm m A lower upper = some rows ∧
      ∀ x : Nat → ℝ, (∀ i, i < m → Rep (rowVal n (A i) x)) →
        ((∀ r ∈ rows, r.Allows n x) ↔
          ∀ i, i < m → Within (lower i) (upper i) (rowVal n (A i) x)) := by
  have key : ∀ (k i : Nat) (done rest : List LpRow) (count : Nat),
      i + k = m → rest.length = countRows lower upper k i → count = done.length + rest.length →
      ∃ new, setCstr A lower upper count k i (done.length + 1) (done ++ rest) = .ok (done ++ new) ∧
        ∀ x : Nat → ℝ, (∀ i, i < m → Rep (rowVal n (A i) x)) →
          ((∀ r ∈ new, r.Allows n x) ↔
            ∀ j, i ≤ j → j < i + k → Within (lower j) (upper j) (rowVal n (A j) x)) := by
    intro k
    induction k with
    | zero =>
      intro i done rest count _ hr hc
      have : rest = [] := List.eq_nil_of_length_eq_zero hr
      subst this
      refine ⟨[], ?_, fun x _ => ?_⟩
      · rw [setCstr, if_pos (by rw [hc]; rfl)]
      · constructor
        · intro _ j h1 h2; omega
        · intro _ r hr; simp at hr
    | succ k ih =>
      intro i done rest count hi hr hc
      have hne : ¬ isEq (lower i) (upper i) := fun h => he i (by omega) h.2
      have hbi := hb i (by omega)
      have split : ∀ (P : Nat → Prop), (∀ j, i ≤ j → j < i + (k + 1) → P j) ↔
          P i ∧ ∀ j, i + 1 ≤ j → j < i + 1 + k → P j := by
        intro P
        constructor
        · intro h; exact ⟨h i le_rfl (by omega), fun j h1 h2 => h j (by omega) (by omega)⟩
        · intro h j h1 h2
          rcases Nat.eq_or_lt_of_le h1 with rfl | h3
          · exact h.1
          · exact h.2 j h3 (by omega)
      have one : ∀ (t : LpType) (v : EReal),
          rest.length = 1 + countRows lower upper k (i + 1) →
          (∀ x : Nat → ℝ, Rep (rowVal n (A i) x) → (LpRow.Allows n ⟨A i, t, v⟩ x ↔
            Within (lower i) (upper i) (rowVal n (A i) x))) →
          ∃ new, (match setRow (done ++ rest) t (A i) (done.length + 1) v with
            | none => LpOut.err (done ++ rest)
            | some rows => setCstr A lower upper count k (i + 1) (done.length + 1 + 1) rows) =
              .ok (done ++ new) ∧
            ∀ x : Nat → ℝ, (∀ i, i < m → Rep (rowVal n (A i) x)) →
              ((∀ r ∈ new, r.Allows n x) ↔ ∀ j, i ≤ j → j < i + (k + 1) →
                Within (lower j) (upper j) (rowVal n (A j) x)) := by
        intro t v hl hw
        cases rest with
        | nil => simp at hl; omega
        | cons r rest =>
          rw [setRow_append]
          obtain ⟨new, h1, h2⟩ := ih (i + 1) (done ++ [⟨A i, t, v⟩]) rest count (by omega)
            (by simp at hl; omega) (by simp [hc]; omega)
          refine ⟨⟨A i, t, v⟩ :: new, ?_, fun x hx => ?_⟩
          · simpa using h1
          · rw [split, ← h2 x hx, List.forall_mem_cons, hw x (hx i (by omega))]
      rw [setCstr]
      simp only
      rw [countRows] at hr
      by_cases hl : isLb (lower i) <;> by_cases hu : isUb (upper i)
      · rw [if_neg (by tauto), if_neg hne, if_neg (by tauto), if_neg (by tauto)]
        rw [if_neg (by tauto), if_pos ⟨hl, hu⟩] at hr
        match rest, hr, hc with
        | [], hr, _ => simp at hr; omega
        | [r], hr, _ => simp at hr; omega
        | r :: r' :: rest, hr, hc =>
          rw [setRow_append]
          have e1 : done ++ ⟨A i, .le, upper i⟩ :: r' :: rest =
            (done ++ [⟨A i, .le, upper i⟩]) ++ r' :: rest := by simp
          have e2 : done.length + 1 + 1 = (done ++ [(⟨A i, .le, upper i⟩ : LpRow)]).length + 1 := by
            simp
          simp only
          rw [e1, e2, setRow_append]
          obtain ⟨new, h1, h2⟩ := ih (i + 1)
            (done ++ [⟨A i, .le, upper i⟩, ⟨A i, .ge, lower i⟩]) rest count (by omega)
            (by simp at hr; omega) (by simp [hc]; omega)
          refine ⟨⟨A i, .le, upper i⟩ :: ⟨A i, .ge, lower i⟩ :: new, ?_, fun x hx => ?_⟩
          · simpa using h1
          · rw [split, ← h2 x hx, List.forall_mem_cons, List.forall_mem_cons]
            simp only [LpRow.Allows, Within, fin_iff hl.2, fin_iff hu.2, false_or]
            tauto
      · rw [if_neg (by tauto), if_neg hne, if_neg (by tauto), if_pos ⟨hl, hu⟩]
        rw [if_neg (by tauto), if_neg (by tauto)] at hr
        refine one _ _ hr (fun x hx => ?_)
        simp only [LpRow.Allows, Within, fin_iff hl.2, false_or, ub_or hx hu, and_true]
      · rw [if_neg (by tauto), if_neg hne, if_pos ⟨hl, hu⟩]
        rw [if_neg (by tauto), if_neg (by tauto)] at hr
        refine one _ _ hr (fun x hx => ?_)
        simp only [LpRow.Allows, Within, fin_iff hu.2, false_or, lb_or hx hl, true_and]
      · exact absurd hbi (by tauto)
  obtain ⟨new, h1, h2⟩ := key m 0 []
    (List.replicate (countRows lower upper m 0) ⟨fun _ => 0, .le, 0⟩) _ (by omega) (by simp) rfl
  refine ⟨new, ?_, fun x hx => ?_⟩
  · unfold lpsolveGm
    simp only [List.length_nil, List.nil_append, Nat.zero_add, List.length_replicate] at h1 ⊢
    rw [h1]
  · rw [h2 x hx]
    constructor
    · intro h i hi; exact h i (by omega) (by omega)
    · intro h i _ hi; exact h i (by omega)

/-- **C59**, LP-Solve with compressed rows.  Missing: a lower bound `+∞` or an upper bound `-∞`,
which is taken literally if neither end is a bound. -/
theorem C59_lpsolve_crs_partial (n : Nat) (A : Nat → Nat → ℝ) (lower upper : Nat → EReal)
    (x : Nat → ℝ) (m i : Nat)
    (hd : ∀ j, i ≤ j → j < i + m → lower j ≠ ⊤ ∧ upper j ≠ ⊥ ∧ Rep (rowVal n (A j) x)) :
    (∀ r ∈ lpsolveCrs A lower upper m i, r.Allows n x) ↔
      ∀ j, i ≤ j → j < i + m → Within (lower j) (upper j) (rowVal n (A j) x) := by
  induction m generalizing i with
  | zero =>
    constructor
    · intro _ j h1 h2; omega
    · intro _ r hr; simp [lpsolveCrs] at hr
  | succ m ih =>
    obtain ⟨d1, d2, hx⟩ := hd i le_rfl (by omega)
    have hi := ih (i + 1) (fun j h1 h2 => hd j (by omega) (by omega))
    have split : (∀ j, i ≤ j → j < i + (m + 1) → Within (lower j) (upper j) (rowVal n (A j) x)) ↔
        Within (lower i) (upper i) (rowVal n (A i) x) ∧
        ∀ j, i + 1 ≤ j → j < i + 1 + m → Within (lower j) (upper j) (rowVal n (A j) x) := by
      constructor
      · intro h; exact ⟨h i le_rfl (by omega), fun j h1 h2 => h j (by omega) (by omega)⟩
      · intro h j h1 h2
        rcases Nat.eq_or_lt_of_le h1 with rfl | h3
        · exact h.1
        · exact h.2 j h3 (by omega)
    rw [split, ← hi, lpsolveCrs]
    simp only [List.forall_mem_append]
    refine and_congr ?_ Iff.rfl
    split_ifs with h1 h2 h3
    · obtain ⟨hf, he⟩ := h1
      simp only [List.forall_mem_singleton, LpRow.Allows, Within, ← he, fin_iff hf, false_or]
      exact ⟨fun h => ⟨h.ge, h.le⟩, fun h => le_antisymm h.2 h.1⟩
    · simp only [List.forall_mem_singleton, LpRow.Allows, Within, fin_iff h2.2.2, false_or,
        lb_or hx h2.1, true_and]
    · simp only [List.forall_mem_singleton, LpRow.Allows, Within, fin_iff h3.1.2, false_or,
        ub_or hx h3.2, and_true]
    · have := C59_raw_partial (lower i) (upper i) d1 d2 (rowVal n (A i) x)
      rw [← this]
      simp [LpRow.Allows, rawAllows, and_comm]

theorem dblMax_pos : (4 : ℝ) < dblMax := by
  unfold dblMax
  have h : (2 : ℝ) ^ 1024 = 2 ^ 53 * 2 ^ 971 := by rw [← pow_add]
  have h2 : (1 : ℝ) ≤ 2 ^ 971 := one_le_pow₀ (by norm_num)
  rw [h]
  generalize (2 : ℝ) ^ 971 = t at h2
  norm_num
  linarith

theorem isLb_coe {r : ℝ} (h : |r| ≤ 4) : isLb (r : EReal) := by
  have := dblMax_pos
  have := abs_le.1 h
  exact ⟨by exact_mod_cast (by linarith : -dblMax < r), EReal.coe_ne_bot r, EReal.coe_ne_top r⟩

theorem isUb_coe {r : ℝ} (h : |r| ≤ 4) : isUb (r : EReal) := by
  have := dblMax_pos
  have := abs_le.1 h
  exact ⟨by exact_mod_cast (by linarith : r < dblMax), EReal.coe_ne_bot r, EReal.coe_ne_top r⟩

theorem not_isLb_bot : ¬ isLb ⊥ := fun h => h.2.1 rfl
theorem not_isUb_top : ¬ isUb ⊤ := fun h => h.2.2 rfl

/-- **C59 fails** for LP-Solve with a general matrix: a row without bounds takes the place of the
next one, which then does not exist.  Here `x ≤ 1` is lost and `x = 2` is allowed. -/
theorem C59_violates_lpsolve_free :
    let lower : Nat → EReal := fun _ => ⊥
    let upper : Nat → EReal := fun i => if i = 1 then ((1 : ℝ) : EReal) else ⊤
    let x : Nat → ℝ := fun _ => 2
    ∃ rows, lpsolveGm 2 (fun _ _ => 1) lower upper = some rows ∧ (∀ r ∈ rows, r.Allows 1 x) ∧
      Rep (rowVal 1 (fun _ => 1) x) ∧ ¬ Within (lower 1) (upper 1) (rowVal 1 (fun _ => 1) x) := by
  intro lower upper x
  have u1 : isUb (upper 1) := by
    simp only [upper, if_true]; exact isUb_coe (by norm_num)
  have u0 : ¬ isUb (upper 0) := by
    simp only [upper]; exact not_isUb_top
  have l : ∀ i, ¬ isLb (lower i) := fun i => not_isLb_bot
  have hv : rowVal 1 (fun _ => 1) x = 2 := by simp [rowVal, x]
  refine ⟨[⟨fun _ => 1, .fr, 0⟩], ?_, ?_, ?_, ?_⟩
  · have hc : countRows lower upper 2 0 = 1 := by
      simp [countRows, l, u0, u1]
    unfold lpsolveGm
    simp only [hc]
    have he : ¬ isEq (lower 1) (upper 1) := fun h => h.1.1 rfl
    simp [setCstr, l, u0, u1, setRow, he]
  · simp [LpRow.Allows]
  · rw [hv]
    have := dblMax_pos
    exact ⟨by linarith, by linarith⟩
  · rw [hv]
    simp only [Within, lower, upper, if_true]
    rintro ⟨-, h | h⟩
    · rcases h with h | h
      · exact EReal.coe_ne_bot _ h
      · exact EReal.coe_ne_top _ h
    · have : (2 : ℝ) ≤ 1 := by exact_mod_cast h
      norm_num at this

/-- **C59 fails** for LP-Solve with a general matrix and an equality: it is counted as two rows and
set as one, so the final assertion fails. -/
theorem C59_violates_lpsolve_eq (A : Nat → Nat → ℝ) (b : EReal) (h1 : isLb b) (h2 : isUb b) :
    lpsolveGm 1 A (fun _ => b) (fun _ => b) = none := by
  have he : isEq b b := ⟨h1.2, rfl⟩
  simp [lpsolveGm, countRows, h1, h2, setCstr, he, setRow]

/-- **C59 fails** for bounds that are passed on as they are: the lower bound `+∞` allows nothing. -/
theorem C59_violates_raw : Rep 0 ∧ Within ⊤ ⊤ 0 ∧ ¬ rawAllows ⊤ ⊤ 0 := by
  have := dblMax_pos
  refine ⟨⟨by linarith, by linarith⟩, ⟨Or.inl (Or.inr rfl), Or.inl (Or.inr rfl)⟩, ?_⟩
  rintro ⟨h, -⟩
  exact EReal.coe_ne_top _ (top_le_iff.1 h)

/-- The five kinds of GLPK bounds all occur. -/
example : boundsType ((1 : ℝ) : EReal) ((1 : ℝ) : EReal) = some .fx ∧
    boundsType ((1 : ℝ) : EReal) ((2 : ℝ) : EReal) = some .db ∧
    boundsType ⊥ ((2 : ℝ) : EReal) = some .up ∧ boundsType ((1 : ℝ) : EReal) ⊤ = some .lo ∧
    boundsType ⊥ ⊤ = some .fr := by
  have l1 : isLb ((1 : ℝ) : EReal) := isLb_coe (by norm_num)
  have u1 : isUb ((1 : ℝ) : EReal) := isUb_coe (by norm_num)
  have u2 : isUb ((2 : ℝ) : EReal) := isUb_coe (by norm_num)
  have n1 : ¬ isEq ((1 : ℝ) : EReal) ((2 : ℝ) : EReal) := by
    rintro ⟨-, h⟩
    have : (1 : ℝ) = 2 := by exact_mod_cast h
    norm_num at this
  have n2 : ¬ isEq ⊥ ((2 : ℝ) : EReal) := fun h => h.1.1 rfl
  have n3 : ¬ isEq ((1 : ℝ) : EReal) ⊤ := fun h => EReal.coe_ne_top _ h.2
  have n4 : ¬ isEq ⊥ ⊤ := fun h => h.1.1 rfl
  have e1 : isEq ((1 : ℝ) : EReal) ((1 : ℝ) : EReal) := ⟨l1.2, rfl⟩
  unfold boundsType
  refine ⟨if_pos e1, ?_, ?_, ?_, ?_⟩
  · rw [if_neg n1, if_neg (by tauto), if_neg (by tauto), if_pos ⟨l1, u2⟩, if_pos ⟨u2.1, l1.1⟩]
  · rw [if_neg n2, if_pos ⟨not_isLb_bot, u2⟩, if_pos u2.1]
  · rw [if_neg n3, if_neg (by tauto), if_pos ⟨l1, not_isUb_top⟩, if_pos l1.1]
  · rw [if_neg n4, if_neg (fun h => not_isUb_top.elim h.2), if_neg (fun h => not_isLb_bot h.1),
      if_neg (fun h => not_isLb_bot h.1), if_pos ⟨not_isLb_bot, not_isUb_top⟩]

/-- `1 ≤ x ≤ 2` and `x ≤ 1` meet the hypotheses of `C59_lpsolve_gm_partial`. -/
example : ∃ rows, lpsolveGm 2 (fun _ _ => 1)
    (fun i => if i = 0 then ((1 : ℝ) : EReal) else ⊥) (fun i => if i = 0 then ((2 : ℝ) : EReal) else
      ((1 : ℝ) : EReal)) = some rows := by
  obtain ⟨rows, h, -⟩ := C59_lpsolve_gm_partial 2 1 (fun _ _ => 1)
    (fun i => if i = 0 then ((1 : ℝ) : EReal) else ⊥) (fun i => if i = 0 then ((2 : ℝ) : EReal) else
      ((1 : ℝ) : EReal))
    (fun i _ => by
      right
      split_ifs
      · exact isUb_coe (by norm_num)
      · exact isUb_coe (by norm_num))
    (fun i _ => by
      split_ifs
      · intro h
        have : (1 : ℝ) = 2 := by exact_mod_cast h
        norm_num at this
      · exact (EReal.coe_ne_bot _).symm)
  exact ⟨rows, h⟩

end Verif.Opt
