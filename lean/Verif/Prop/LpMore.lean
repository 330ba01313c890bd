import Verif.Prop.Lp

/-!
# C99: LP-Solve, and where the property fails.  C100: solving in one call releases everything
-/

namespace Verif.Lp

open Verif.Opt

/-! ## LP-Solve -/

/-- For rows with a bound that are no equalities, the dense constructor makes the same rows as the
sparse one. -/
theorem lpsolveGm_eq (m : Nat) (A : Nat → Nat → ℝ) (bl bu : Nat → EReal)
    (hb : ∀ i, i < m → isLb (bl i) ∨ isUb (bu i)) (he : ∀ i, i < m → bl i ≠ bu i) :
    setCstr A bl bu (countRows bl bu m 0) m 0 1
      (List.replicate (countRows bl bu m 0) ⟨fun _ => 0, .le, 0⟩) = .ok (lpsolveCrs A bl bu m 0) := by
  have key : ∀ (k i : Nat) (done rest : List LpRow) (count : Nat),
      i + k = m → rest.length = countRows bl bu k i → count = done.length + rest.length →
      setCstr A bl bu count k i (done.length + 1) (done ++ rest) =
        .ok (done ++ lpsolveCrs A bl bu k i) := by
    intro k
    induction k with
    | zero =>
      intro i done rest count _ hr hc
      simp only [countRows, List.length_eq_zero_iff] at hr
      subst hr
      simp [setCstr, lpsolveCrs, hc]
    | succ k ih =>
      intro i done rest count hik hr hc
      have h1 := hb i (by omega)
      have h2 : ¬ isEq (bl i) (bu i) := fun h => he i (by omega) h.2
      rw [countRows] at hr
      rw [setCstr, lpsolveCrs]
      simp only [if_neg h2]
      by_cases hl : isLb (bl i) <;> by_cases hu : isUb (bu i)
      · simp only [hl, hu, not_true_eq_false, and_self, and_true, and_false, if_false, if_true] at hr ⊢
        obtain ⟨a, b, rest, rfl⟩ : ∃ a b r, rest = a :: b :: r := by
          match rest, hr with
          | [], h => simp at h; omega
          | [_], h => simp at h; omega
          | a :: b :: r, _ => exact ⟨a, b, r, rfl⟩
        simp only [List.length_cons] at hr hc
        rw [setRow_append]
        simp only
        have := setRow_append (done ++ [⟨A i, .le, bu i⟩]) rest b .ge (A i) (bl i)
        simp only [List.length_append, List.length_cons, List.length_nil, List.append_assoc,
          List.cons_append, List.nil_append] at this
        rw [show done.length + 1 + 1 = done.length + (0 + 1) + 1 from rfl, this]
        have := ih (i + 1) (done ++ [⟨A i, .le, bu i⟩, ⟨A i, .ge, bl i⟩]) rest count (by omega) (by omega)
          (by simp; omega)
        simpa [List.append_assoc, Nat.add_assoc] using this
      · simp only [hl, hu, not_true_eq_false, not_false_eq_true, and_self, and_true, and_false,
          if_false, if_true] at hr ⊢
        obtain ⟨a, rest, rfl⟩ : ∃ a r, rest = a :: r := by
          match rest, hr with
          | [], h => simp at h; omega
          | a :: r, _ => exact ⟨a, r, rfl⟩
        simp only [List.length_cons] at hr hc
        rw [setRow_append]
        have := ih (i + 1) (done ++ [⟨A i, .ge, bl i⟩]) rest count (by omega) (by omega)
          (by simp; omega)
        simpa [List.append_assoc, Nat.add_assoc] using this
      · simp only [hl, hu, not_true_eq_false, not_false_eq_true, and_self, and_true, and_false,
          if_false, if_true] at hr ⊢
        obtain ⟨a, rest, rfl⟩ : ∃ a r, rest = a :: r := by
          match rest, hr with
          | [], h => simp at h; omega
          | a :: r, _ => exact ⟨a, r, rfl⟩
        simp only [List.length_cons] at hr hc
        rw [setRow_append]
        have := ih (i + 1) (done ++ [⟨A i, .le, bu i⟩]) rest count (by omega) (by omega)
          (by simp; omega)
        simpa [List.append_assoc, Nat.add_assoc] using this
      · tauto
  simpa using key m 0 [] (List.replicate (countRows bl bu m 0) ⟨fun _ => 0, .le, 0⟩)
    (countRows bl bu m 0) (by omega) (by simp) (by simp)

open Classical in
/-- The rows of LP-Solve allow what the constraints allow, or nothing at all. -/
theorem lpsRows (n m : Nat) (A : Nat → Nat → ℝ) (bl bu : Nat → EReal) :
    (∀ x, (∀ r ∈ lpsolveCrs A bl bu m 0, Rep (rowVal n r.coef x) ∧ r.Allows n x) ↔
      ∀ i, i < m → Rep (rowVal n (A i) x) ∧ Within (bl i) (bu i) (rowVal n (A i) x)) ∨
    ∀ x, ¬ ∀ r ∈ lpsolveCrs A bl bu m 0, r.Allows n x := by
  have mem : ∀ (k i j : Nat), i ≤ j → j < i + k → ∃ r ∈ lpsolveCrs A bl bu k i, r.coef = A j := by
    intro k
    induction k with
    | zero => intro i j h1 h2; omega
    | succ k ih =>
      intro i j h1 h2
      rw [lpsolveCrs]
      by_cases e : j = i
      · subst e
        split_ifs <;> simp
      · obtain ⟨r, hr, h3⟩ := ih (i + 1) j (by omega) (by omega)
        exact ⟨r, List.mem_append_right _ hr, h3⟩
  have coef : ∀ (k i : Nat), ∀ r ∈ lpsolveCrs A bl bu k i, ∃ j, i ≤ j ∧ j < i + k ∧ r.coef = A j := by
    intro k
    induction k with
    | zero => intro i r hr; simp [lpsolveCrs] at hr
    | succ k ih =>
      intro i r hr
      rw [lpsolveCrs] at hr
      simp only [List.mem_append] at hr
      rcases hr with hr | hr
      · refine ⟨i, le_rfl, by omega, ?_⟩
        split_ifs at hr <;> simp at hr
        · rw [hr]
        · rw [hr]
        · rw [hr]
        · rcases hr with hr | hr <;> rw [hr]
      · obtain ⟨j, h1, h2, h3⟩ := ih (i + 1) r hr
        exact ⟨j, by omega, by omega, h3⟩
  have bad : ∀ (k i j : Nat) (x : Nat → ℝ), i ≤ j → j < i + k → ¬ isLb (bl j) → ¬ isUb (bu j) →
      (bl j = ⊤ ∨ bu j = ⊥) → ¬ ∀ r ∈ lpsolveCrs A bl bu k i, r.Allows n x := by
    intro k
    induction k with
    | zero => intro i j x h1 h2; omega
    | succ k ih =>
      intro i j x h1 h2 hl hu hb h
      rw [lpsolveCrs] at h
      by_cases e : j = i
      · subst e
        have hne : ¬ isEq (bl j) (bu j) := by
          rintro ⟨hf, he⟩
          rcases hb with hb | hb
          · exact hf.2 hb
          · exact hf.1 (he.trans hb)
        simp only [if_neg hne, hl, hu, and_false, false_and, not_false_eq_true, if_false] at h
        have a1 := h ⟨A j, .le, bu j⟩ (by simp)
        have a2 := h ⟨A j, .ge, bl j⟩ (by simp)
        simp only [LpRow.Allows] at a1 a2
        rcases hb with hb | hb
        · rw [hb] at a2; exact EReal.coe_ne_top _ (top_le_iff.1 a2)
        · rw [hb] at a1; exact EReal.coe_ne_bot _ (le_bot_iff.1 a1)
      · exact ih (i + 1) j x (by omega) (by omega) hl hu hb
          (fun r hr => h r (List.mem_append_right _ hr))
  by_cases hbad : ∃ j, j < m ∧ ¬ isLb (bl j) ∧ ¬ isUb (bu j) ∧ (bl j = ⊤ ∨ bu j = ⊥)
  · obtain ⟨j, h1, h2, h3, h4⟩ := hbad
    exact Or.inr fun x => bad m 0 j x (by omega) (by omega) h2 h3 h4
  · refine Or.inl fun x => ?_
    -- one row at a time
    have key : ∀ (k i : Nat), i + k ≤ m →
        (∀ j, i ≤ j → j < i + k → Rep (rowVal n (A j) x)) →
        ((∀ r ∈ lpsolveCrs A bl bu k i, r.Allows n x) ↔
          ∀ j, i ≤ j → j < i + k → Within (bl j) (bu j) (rowVal n (A j) x)) := by
      intro k
      induction k with
      | zero =>
        intro i _ _
        exact ⟨fun _ j h1 h2 => by omega, fun _ r hr => by simp [lpsolveCrs] at hr⟩
      | succ k ih =>
        intro i hik hrep
        have hi := ih (i + 1) (by omega) (fun j h1 h2 => hrep j (by omega) (by omega))
        have hx := hrep i le_rfl (by omega)
        have head : (∀ r ∈ (if isEq (bl i) (bu i) then [⟨A i, .eq, bu i⟩]
            else if ¬ isLb (bl i) ∧ isUb (bu i) then [⟨A i, .le, bu i⟩]
            else if isLb (bl i) ∧ ¬ isUb (bu i) then [⟨A i, .ge, bl i⟩]
            else [⟨A i, .le, bu i⟩, ⟨A i, .ge, bl i⟩] : List LpRow), r.Allows n x) ↔
            Within (bl i) (bu i) (rowVal n (A i) x) := by
          by_cases he : isEq (bl i) (bu i)
          · rw [if_pos he]
            obtain ⟨hf, he⟩ := he
            simp only [List.mem_singleton, forall_eq, LpRow.Allows, Within, ← he, fin_iff hf, false_or]
            exact ⟨fun h => ⟨h.ge, h.le⟩, fun h => le_antisymm h.2 h.1⟩
          rw [if_neg he]
          by_cases hl : isLb (bl i) <;> by_cases hu : isUb (bu i)
          · rw [if_neg (by tauto), if_neg (by tauto)]
            simp [LpRow.Allows, Within, fin_iff hl.2, fin_iff hu.2, and_comm]
          · rw [if_neg (by tauto), if_pos ⟨hl, hu⟩]
            simp [LpRow.Allows, Within, fin_iff hl.2, ub_or hx hu]
          · rw [if_pos ⟨hl, hu⟩]
            simp [LpRow.Allows, Within, fin_iff hu.2, lb_or hx hl]
          · rw [if_neg (by tauto), if_neg (by tauto)]
            have h1 : bl i ≠ ⊤ := fun h => hbad ⟨i, by omega, hl, hu, Or.inl h⟩
            have h2 : bu i ≠ ⊥ := fun h => hbad ⟨i, by omega, hl, hu, Or.inr h⟩
            have l1 := lb_or hx hl
            have u1 := ub_or hx hu
            have l2 : bl i ≤ (rowVal n (A i) x : EReal) := by
              rcases l1 with (h | h) | h
              · rw [h]; exact bot_le
              · exact absurd h h1
              · exact h
            have u2 : (rowVal n (A i) x : EReal) ≤ bu i := by
              rcases u1 with (h | h) | h
              · exact absurd h h2
              · rw [h]; exact le_top
              · exact h
            simp [LpRow.Allows, Within, l2, u2]
        rw [lpsolveCrs]
        simp only [List.mem_append, or_imp, forall_and]
        rw [hi]
        constructor
        · rintro ⟨h1, h2⟩ j h3 h4
          by_cases e : j = i
          · subst e; exact head.1 h1
          · exact h2 j (by omega) (by omega)
        · intro h
          exact ⟨head.2 (h i le_rfl (by omega)), fun j h1 h2 => h j (by omega) (by omega)⟩
    constructor
    · intro h i hi
      have hrep : ∀ j, 0 ≤ j → j < 0 + m → Rep (rowVal n (A j) x) := by
        intro j _ hj
        obtain ⟨r, hr, hc⟩ := mem m 0 j (by omega) (by omega)
        have := (h r hr).1
        rwa [hc] at this
      exact ⟨hrep i (by omega) (by omega),
        (key m 0 (by omega) hrep).1 (fun r hr => (h r hr).2) i (by omega) (by omega)⟩
    · intro h r hr
      have hrep : ∀ j, 0 ≤ j → j < 0 + m → Rep (rowVal n (A j) x) :=
        fun j _ hj => (h j (by omega)).1
      obtain ⟨j, -, hj, hc⟩ := coef m 0 r hr
      exact ⟨by rw [hc]; exact hrep j (by omega) (by omega),
        (key m 0 (by omega) hrep).2 (fun j _ hj => (h j (by omega)).2) r hr⟩

/-- The problem holds the program. -/
structure LpsInv (p : Prog) (P : Lps) : Prop where
  nc : P.nc = p.n
  dir : P.dir = p.dir
  obj : ∀ j, j < p.n → P.obj j = p.c j
  col : ∀ j, j < p.n → P.col j = (p.xl j, p.xu j)
  rows : (∀ x, (∀ r ∈ P.rows, Rep (rowVal p.n r.coef x) ∧ r.Allows p.n x) ↔
      ∀ i, i < p.m → Rep (p.row i x) ∧ Within (p.bl i) (p.bu i) (p.row i x)) ∨
    ∀ x, ¬ ∀ r ∈ P.rows, r.Allows p.n x
  loc : ∀ i, i < p.m → ∀ x y, (∀ j, j < p.n → x j = y j) → p.row i x = p.row i y
  kind : ∀ j, p.kind j = .cont

theorem lpsObj_spec (c : Nat → ℝ) (P : Lps) : ∃ o, lpsObj P.nc c P = some { P with obj := o } ∧
    ∀ j, j < P.nc → o j = c j := by
  obtain ⟨s, h1, o, rfl, h2⟩ := loop_inv (fun j P => some (lpsSetObj P (1 + j) (c j)))
    (fun k (s : Lps) => ∃ o, s = { P with obj := o } ∧ ∀ j, j < k → o j = c j) P.nc (by
      rintro i s hi ⟨o, rfl, h⟩
      refine ⟨_, rfl, Function.update o i (c i), ?_, fun j hj => ?_⟩
      · unfold lpsSetObj
        rw [if_pos (by show 1 ≤ 1 + i ∧ 1 + i ≤ P.nc; omega), Nat.add_sub_cancel_left]
      · by_cases e : j = i
        · subst e; rw [Function.update_self]
        · rw [Function.update_of_ne (by omega)]; exact h j (by omega)) P ⟨P.obj, rfl, by omega⟩
  exact ⟨o, h1, h2⟩

theorem lpsBnd_spec (xl xu : Nat → EReal) (P : Lps) :
    ∃ b, lpsBnd P.nc xl xu P = some { P with col := b } ∧ ∀ j, j < P.nc → b j = (xl j, xu j) := by
  obtain ⟨s, h1, o, rfl, h2⟩ := loop_inv (fun j P => some (lpsSetBounds P (1 + j) (xl j) (xu j)))
    (fun k (s : Lps) => ∃ o, s = { P with col := o } ∧ ∀ j, j < k → o j = (xl j, xu j)) P.nc (by
      rintro i s hi ⟨o, rfl, h⟩
      refine ⟨_, rfl, Function.update o i (xl i, xu i), ?_, fun j hj => ?_⟩
      · unfold lpsSetBounds
        rw [if_pos (by show 1 ≤ 1 + i ∧ 1 + i ≤ P.nc; omega), Nat.add_sub_cancel_left]
      · by_cases e : j = i
        · subst e; rw [Function.update_self]
        · rw [Function.update_of_ne (by omega)]; exact h j (by omega)) P ⟨P.col, rfl, by omega⟩
  exact ⟨o, h1, h2⟩

theorem lpsFinish_spec (h : Heap) (c : Nat → ℝ) (xl xu : Nat → EReal) (P : Lps) :
    ∃ o b, lpsFinish h P.nc c xl xu P = some (cxFinish h, { P with obj := o, col := b }) ∧
      (∀ j, j < P.nc → o j = c j) ∧ ∀ j, j < P.nc → b j = (xl j, xu j) := by
  obtain ⟨o, h1, h2⟩ := lpsObj_spec c P
  obtain ⟨b, h3, h4⟩ := lpsBnd_spec xl xu { P with obj := o }
  exact ⟨o, b, by rw [lpsFinish, h1, Option.bind_some, h3]; rfl, h2, h4⟩

theorem lpsGm_inv (h : Heap) (m n : Nat) (A : Nat → ℝ) (lda : Nat) (bl bu : Nat → EReal)
    (c : Nat → ℝ) (xl xu : Nat → EReal) (hb : ∀ i, i < m → isLb (bl i) ∨ isUb (bu i))
    (he : ∀ i, i < m → bl i ≠ bu i) :
    ∃ P, lpsGm h m n A lda bl bu c xl xu = some (cxFinish (cxFinish (newProb h)), P) ∧
      LpsInv (dense m n A lda bl bu c xl xu) P := by
  obtain ⟨b, h1, -⟩ := lpsBnd_spec xl xu ⟨n, .max, fun _ => 0,
    List.replicate (countRows bl bu m 0) ⟨fun _ => 0, .le, 0⟩, fun _ => (0, ⊤)⟩
  obtain ⟨o, h2, -⟩ := lpsObj_spec c ⟨n, .max, fun _ => 0,
    List.replicate (countRows bl bu m 0) ⟨fun _ => 0, .le, 0⟩, b⟩
  obtain ⟨o', b', h3, h4, h5⟩ := lpsFinish_spec (cxFinish (newProb h)) c xl xu
    ⟨n, .max, o, lpsolveCrs (fun i j => matref A lda i j) bl bu m 0, b⟩
  have hv : ∀ i x, rowVal n (fun j => matref A lda i j) x =
      ∑ j ∈ Finset.range n, A (lda * j + i) * x j :=
    fun i x => Finset.sum_congr rfl fun j _ => by simp only [matref, mul_comm j]
  refine ⟨⟨n, .max, o', lpsolveCrs (fun i j => matref A lda i j) bl bu m 0, b'⟩, ?_, rfl, rfl, h4, h5,
    ?_, ?_, fun _ => rfl⟩
  · unfold lpsGm
    simp only at h1 h2 h3 ⊢
    rw [h1, Option.bind_some, h2, Option.bind_some, lpsCstr]
    simp only
    rw [lpsolveGm_eq m _ bl bu hb he, Option.bind_some]
    exact h3
  · have := lpsRows n m (fun i j => matref A lda i j) bl bu
    simp only [hv] at this
    exact this
  · intro i _ x y hxy
    show ∑ j ∈ Finset.range n, A (lda * j + i) * x j = ∑ j ∈ Finset.range n, A (lda * j + i) * y j
    exact Finset.sum_congr rfl fun j hj => by rw [hxy j (Finset.mem_range.1 hj)]

theorem lpsCrs_inv (h : Heap) (m n : Nat) (C : Crs) (hC : GoodCrs m n C) (bl bu : Nat → EReal)
    (c : Nat → ℝ) (xl xu : Nat → EReal) :
    ∃ P, lpsCrs h m n C bl bu c xl xu = some (cxFinish (newProb h), P) ∧
      LpsInv (crs m n C bl bu c xl xu) P := by
  obtain ⟨o, b, h3, h4, h5⟩ := lpsFinish_spec (newProb h) c xl xu
    ⟨n, .max, fun _ => 0, lpsolveCrs (crsRow C) bl bu m 0, fun _ => (0, ⊤)⟩
  have hv : ∀ i, i < m → ∀ x, rowVal n (crsRow C i) x =
      ∑ k ∈ Finset.Ico (C.ptr i) (C.ptr (i + 1)), C.val k * x (C.col k) := by
    intro i hi x
    rw [← sum_ptr, ← sum_sparse n _ (fun k => C.col (C.ptr i + k))
      (fun k => C.val (C.ptr i + k)) x (fun k hk => hC.col i hi _ (by omega) (by omega))]
    refine Finset.sum_congr rfl fun j _ => ?_
    rw [crsRow]
    simp
  refine ⟨⟨n, .max, o, lpsolveCrs (crsRow C) bl bu m 0, b⟩, ?_, rfl, rfl, h4, h5, ?_, ?_,
    fun _ => rfl⟩
  · unfold lpsCrs
    rw [if_pos (fun i hi => ⟨hC.mono i hi, hC.col i hi⟩)]
    exact h3
  · rcases lpsRows n m (crsRow C) bl bu with h1 | h1
    · refine Or.inl fun x => (h1 x).trans ?_
      refine forall_congr' fun i => forall_congr' fun hi => ?_
      rw [hv i hi x]
      rfl
    · exact Or.inr h1
  · intro i hi x y hxy
    show ∑ k ∈ Finset.Ico (C.ptr i) (C.ptr (i + 1)), C.val k * x (C.col k) =
      ∑ k ∈ Finset.Ico (C.ptr i) (C.ptr (i + 1)), C.val k * y (C.col k)
    exact Finset.sum_congr rfl fun k hk => by
      have hk := Finset.mem_Ico.1 hk
      rw [hxy _ (hC.col i hi k hk.1 hk.2)]

/-- A change of the direction, the objective or the bounds of the variables. -/
def Simple : Change → Prop
  | .dir _ => True
  | .obj _ => True
  | .bnd _ _ => True
  | _ => False

theorem lpsChange_inv {p : Prog} {P : Lps} (hP : LpsInv p P) (ch : Change) (hc : Simple ch) :
    ∃ P', lpsChange p.m p.n P ch = some (0, P') ∧ LpsInv (p.change ch) P' := by
  obtain ⟨a1, a2, a3, a4, a5, a6, a7⟩ := hP
  cases ch with
  | dir d => exact ⟨_, rfl, a1, rfl, a3, a4, a5, a6, a7⟩
  | obj c =>
    obtain ⟨o, h1, h2⟩ := lpsObj_spec c P
    exact ⟨{ P with obj := o }, by rw [lpsChange, ← a1, h1]; rfl, a1, a2,
      fun j hj => h2 j (by rw [a1]; exact hj), a4, a5, a6, a7⟩
  | bnd xl xu =>
    obtain ⟨b, h1, h2⟩ := lpsBnd_spec xl xu P
    exact ⟨{ P with col := b }, by rw [lpsChange, ← a1, h1]; rfl, a1, a2, a3,
      fun j hj => h2 j (by rw [a1]; exact hj), a5, a6, a7⟩
  | cstr => exact hc.elim
  | type => exact hc.elim

theorem lps_history (chs : List Change) : ∀ (p : Prog) (P : Lps), LpsInv p P →
    (∀ ch ∈ chs, Simple ch) →
    ∃ P', history (lpsChange p.m p.n) chs P p = some (P', chs.foldl Prog.change p) ∧
      LpsInv (chs.foldl Prog.change p) P' := by
  induction chs with
  | nil => intro p P hP _; exact ⟨P, rfl, hP⟩
  | cons ch chs ih =>
    intro p P hP h
    obtain ⟨P', h1, h2⟩ := lpsChange_inv hP ch (h ch (by simp))
    obtain ⟨e1, e2⟩ := change_size p ch
    obtain ⟨P'', h3, h4⟩ := ih (p.change ch) P' h2 (fun c hc => h c (List.mem_cons_of_mem _ hc))
    refine ⟨P'', ?_, h4⟩
    rw [history, h1]
    simp only [if_pos]
    rw [e1, e2] at h3
    exact h3

theorem lpsSolve_opt {L : LpsLib} (hL : LpsOk L) {p : Prog} {P : Lps} (hP : LpsInv p P)
    (x0 : Nat → ℝ) : ∃ r x, lpsSolve L P p.n x0 = some (r, x) ∧ (r = 0 → p.Optimal x) := by
  refine ⟨_, _, if_pos hP.nc.symm, fun hr => ?_⟩
  have hb := hL P hr
  have hrow : ∀ x, (∀ r ∈ P.rows, Rep (rowVal p.n r.coef x) ∧ r.Allows p.n x) ↔
      ∀ i, i < p.m → Rep (p.row i x) ∧ Within (p.bl i) (p.bu i) (p.row i x) :=
    hP.rows.resolve_right fun hn => hn (L P).2 fun r hr => by
      have := (hb.1.1 r hr).2
      rwa [hP.nc] at this
  have hcol : ∀ j, j < p.n → p.xl j ≠ ⊤ ∧ p.xu j ≠ ⊥ := by
    intro j hj
    have := (hb.1.2 j (by rw [hP.nc]; exact hj)).2
    rw [hP.col j hj] at this
    exact ⟨fun h => by rw [h] at this; exact EReal.coe_ne_top _ (top_le_iff.1 this.1),
      fun h => by rw [h] at this; exact EReal.coe_ne_bot _ (le_bot_iff.1 this.2)⟩
  have hf : ∀ x y, (∀ j, j < p.n → x j = y j) → (P.Feasible y ↔ p.Feasible x) := by
    intro x y hxy
    unfold Lps.Feasible Prog.Feasible
    rw [hP.nc, hrow y]
    apply and_congr
    · refine forall_congr' fun i => forall_congr' fun hi => ?_
      rw [hP.loc i hi x y hxy]
    · refine forall_congr' fun j => forall_congr' fun hj => ?_
      rw [hP.col j hj, hxy j hj, C59_raw_partial _ _ (hcol j hj).1 (hcol j hj).2]
      simp [hP.kind j]
  have hv : ∀ x y : Nat → ℝ, (∀ j, j < p.n → x j = y j) → rowVal P.nc P.obj y = p.value x := by
    intro x y hxy
    rw [rowVal, Prog.value, hP.nc]
    exact Finset.sum_congr rfl fun j hj => by
      rw [hP.obj j (Finset.mem_range.1 hj), hxy j (Finset.mem_range.1 hj)]
  have hxy : ∀ j, j < p.n → (if j < P.nc then (L P).2 j else x0 j) = (L P).2 j :=
    fun j hj => if_pos (by rw [hP.nc]; exact hj)
  refine ⟨(hf _ _ hxy).1 hb.1, fun z hz => ?_⟩
  have h1 := hb.2 z ((hf z z (fun _ _ => rfl)).2 hz)
  simp only [hP.dir, hv z z (fun _ _ => rfl), hv _ _ hxy] at h1
  exact h1

/-- **C99**, LP-Solve: for all programs in sparse form, and those in dense form whose constraints all
have a bound and are no equalities, and all changes of the direction, the objective and the bounds of
the variables: creation, changes and the solver run to completion, and if `aa_opt_solve` returns zero,
the vector is an optimal solution of the program as it was last described.  Missing: other constraints
in dense form (`C99_violates_lpsolve_free`, `C99_violates_lpsolve_eq`), changes of the constraints
(`C99_violates_lpsolve_change`) and types. -/
theorem C99_lpsolve_partial (L : LpsLib) (hL : LpsOk L) (h : Heap) (m n : Nat)
    (bl bu : Nat → EReal) (c : Nat → ℝ) (xl xu : Nat → EReal) (x : Nat → ℝ) (chs : List Change)
    (hch : ∀ ch ∈ chs, Simple ch) :
    ((∀ i, i < m → isLb (bl i) ∨ isUb (bu i)) → (∀ i, i < m → bl i ≠ bu i) →
      ∀ A lda, ∃ h' P P' p r y, lpsGm h m n A lda bl bu c xl xu = some (h', P) ∧
      history (lpsChange m n) chs P (dense m n A lda bl bu c xl xu) = some (P', p) ∧
      lpsSolve L P' n x = some (r, y) ∧ (r = 0 → p.Optimal y)) ∧
    ∀ C, GoodCrs m n C → ∃ h' P P' p r y, lpsCrs h m n C bl bu c xl xu = some (h', P) ∧
      history (lpsChange m n) chs P (crs m n C bl bu c xl xu) = some (P', p) ∧
      lpsSolve L P' n x = some (r, y) ∧ (r = 0 → p.Optimal y) := by
  constructor
  · intro hb he A lda
    obtain ⟨P, h1, h2⟩ := lpsGm_inv h m n A lda bl bu c xl xu hb he
    obtain ⟨P', h3, h4⟩ := lps_history chs _ P h2 hch
    obtain ⟨r, y, h5, h6⟩ := lpsSolve_opt hL h4 x
    rw [(foldl_size chs (dense m n A lda bl bu c xl xu)).2] at h5
    exact ⟨_, P, P', _, r, y, h1, h3, h5, h6⟩
  · intro C hC
    obtain ⟨P, h1, h2⟩ := lpsCrs_inv h m n C hC bl bu c xl xu
    obtain ⟨P', h3, h4⟩ := lps_history chs _ P h2 hch
    obtain ⟨r, y, h5, h6⟩ := lpsSolve_opt hL h4 x
    rw [(foldl_size chs (crs m n C bl bu c xl xu)).2] at h5
    exact ⟨_, P, P', _, r, y, h1, h3, h5, h6⟩

/-! ## Solver libraries that keep their contracts -/

open Classical in
/-- A point with a property, if there is one. -/
noncomputable def pick (F : (Nat → ℝ) → Prop) : Bool × (Nat → ℝ) :=
  if h : ∃ y, F y then (true, h.choose) else (false, fun _ => 0)

theorem pick_spec {F : (Nat → ℝ) → Prop} (h : (pick F).1 = true) : F (pick F).2 := by
  unfold pick at h ⊢
  split_ifs at h ⊢ with h1
  exact h1.choose_spec

theorem pick_of {F : (Nat → ℝ) → Prop} {y : Nat → ℝ} (h : F y) : (pick F).1 = true := by
  unfold pick
  rw [dif_pos ⟨y, h⟩]

/-- GLPK as documented: it returns zero whether or not there is a solution. -/
noncomputable def refGlp : GlpLib where
  simplex P := ⟨0, (pick (Best P.dir (P.Feasible false) P.value)).1,
    (pick (Best P.dir (P.Feasible false) P.value)).2⟩
  intopt P := ⟨0, (pick (Best P.dir (P.Feasible true) P.value)).1,
    (pick (Best P.dir (P.Feasible true) P.value)).2⟩

theorem refGlp_ok : GlpOk refGlp := ⟨fun _ _ h => pick_spec h, fun _ _ h => pick_spec h⟩

/-! ## Where the property fails -/

theorem hundred_lt : (100 : ℝ) < dblMax := by
  unfold dblMax
  rw [show (2 : ℝ) ^ 1024 = 2 ^ 971 * 2 ^ 53 by rw [← pow_add],
    show (2 : ℝ) ^ 971 = 2 ^ 964 * 2 ^ 7 by rw [← pow_add]]
  have h2 := one_le_pow₀ (one_le_two : (1 : ℝ) ≤ 2) (n := 964)
  generalize (2 : ℝ) ^ 964 = t at h2
  norm_num
  linarith

theorem rep_small {v : ℝ} (h : |v| ≤ 100) : Rep v := by
  have h1 := hundred_lt
  have h2 := abs_le.1 h
  exact ⟨by linarith, by linarith⟩

theorem within_coe (a b v : ℝ) : Within (a : EReal) (b : EReal) v ↔ a ≤ v ∧ v ≤ b := by
  simp [Within]

theorem within_le (b v : ℝ) : Within ⊥ (b : EReal) v ↔ v ≤ b := by simp [Within]

theorem within_ge (a v : ℝ) : Within (a : EReal) ⊤ v ↔ a ≤ v := by simp [Within]

/-- **C99 fails** for GLPK: `s_solve` returns the value of `glp_simplex`, which is zero for a program
without solutions too, and does not look at the status.  Here `x` is to be 0 and at least 1. -/
theorem C99_violates_glpk_status (L : GlpLib) (h : Heap) (x : Nat → ℝ)
    (hz : ∀ P : Glp, (∀ y, ¬ P.Feasible false y) → (L.simplex P).ret = 0) :
    ∃ h' y, lpGlpk L h 1 1 (fun _ => 1) 1 (fun _ => (1 : ℝ)) (fun _ => ⊤) (fun _ => 1)
        (fun _ => (0 : ℝ)) (fun _ => (0 : ℝ)) x = some (h', 0, y) ∧
      ¬ (dense 1 1 (fun _ => 1) 1 (fun _ => (1 : ℝ)) (fun _ => ⊤) (fun _ => 1)
        (fun _ => (0 : ℝ)) (fun _ => (0 : ℝ))).Optimal y := by
  obtain ⟨P, h1, h2⟩ := glpGm_inv h 1 1 le_rfl le_rfl (fun _ => 1) 1 (fun _ => (1 : ℝ)) (fun _ => ⊤)
    (fun _ => 1) (fun _ => (0 : ℝ)) (fun _ => (0 : ℝ))
  have hno : ∀ x, ¬ (dense 1 1 (fun _ => 1) 1 (fun _ => (1 : ℝ)) (fun _ => ⊤) (fun _ => 1)
      (fun _ => (0 : ℝ)) (fun _ => (0 : ℝ))).Feasible x := by
    intro x hx
    have a1 := (hx.1 0 (by decide)).2
    have a2 := (hx.2 0 (by decide)).2.1
    simp only [dense, Finset.sum_range_one, one_mul, within_ge, within_coe] at a1 a2
    linarith [a2.2]
  have hint : ∀ j, j < P.nc → P.isInt (j + 1) = false := by
    intro j hj
    have := h2.kind j (by rw [← h2.nc]; exact hj)
    by_contra hc
    have := this.1 (by simpa using hc)
    simp [dense] at this
  refine ⟨destroy (cxFinish (newProb h)), (glpSolve L P 1 x).2, ?_, fun h => hno _ h.1⟩
  · rw [lpGlpk, h1, Option.map_some]
    have hr : (glpSolve L P 1 x).1 = 0 := by
      unfold glpSolve
      rw [if_neg (by rintro ⟨j, hj, hj'⟩; rw [hint j hj] at hj'; simp at hj')]
      refine hz P fun y hy => ?_
      exact hno (fun k => y (k + 1)) ((glp_feasible h2 false (Or.inr hint) _ y (fun _ _ => rfl)).1 hy)
    rw [show glpSolve L P 1 x = (0, (glpSolve L P 1 x).2) from Prod.ext hr rfl]

/-- **C99 fails** for GLPK and a program without constraints (or without variables): `glp_add_rows`
(`glp_add_cols`) ends the process. -/
theorem C99_violates_glpk_empty (L : GlpLib) (h : Heap) (n : Nat) (A : Nat → ℝ) (lda : Nat)
    (bl bu : Nat → EReal) (c : Nat → ℝ) (xl xu : Nat → EReal) (x : Nat → ℝ) :
    lpGlpk L h 0 n A lda bl bu c xl xu x = none ∧
    ∀ m, lpGlpk L h m 0 A lda bl bu c xl xu x = none := by
  constructor
  · simp [lpGlpk, glpGm, glpInit, glpAddRows]
  · intro m
    unfold lpGlpk glpGm glpInit glpAddRows
    by_cases hm : 1 ≤ m <;> simp [hm, glpAddCols]

/-- **C99 fails** for GLPK and binary variables: for GLPK, a binary variable is an integer with the
bounds 0 and 1, and bounds that are set later replace these.  The maximum of the binary `x ≤ 5` is then
5. -/
theorem C99_violates_glpk_binary (L : GlpLib) (hL : GlpOk L) (h : Heap) (x : Nat → ℝ) :
    ∃ h' P P' p, glpGm h 1 1 (fun _ => 1) 1 (fun _ => ⊥) (fun _ => (10 : ℝ)) (fun _ => 1)
        (fun _ => (0 : ℝ)) (fun _ => (1 : ℝ)) = some (h', P) ∧
      history (glpChange 1 1) [.type 0 .bin, .bnd (fun _ => (0 : ℝ)) (fun _ => (5 : ℝ))] P
        (dense 1 1 (fun _ => 1) 1 (fun _ => ⊥) (fun _ => (10 : ℝ)) (fun _ => 1)
          (fun _ => (0 : ℝ)) (fun _ => (1 : ℝ))) = some (P', p) ∧
      p.kind 0 = .bin ∧
      ((glpSolve L P' 1 x).1 = 0 → glpStatus L P' = true → ¬ p.Feasible (glpSolve L P' 1 x).2) := by
  obtain ⟨P, h1, h2⟩ := glpGm_inv h 1 1 le_rfl le_rfl (fun _ => 1) 1 (fun _ => ⊥)
    (fun _ => (10 : ℝ)) (fun _ => 1) (fun _ => (0 : ℝ)) (fun _ => (1 : ℝ))
  have hnc : P.nc = 1 := h2.nc
  have hnr : P.nr = 1 := h2.nr
  obtain ⟨b, h3, h4⟩ := glpBnd_spec (fun _ => ((0 : ℝ) : EReal)) (fun _ => ((5 : ℝ) : EReal))
    { P with isInt := Function.update P.isInt 1 true, col := Function.update P.col 1 (.db, 0, 1) }
  simp only [hnc] at h3 h4
  refine ⟨_, P, { P with isInt := Function.update P.isInt 1 true, col := b },
    ((dense 1 1 (fun _ => 1) 1 (fun _ => ⊥) (fun _ => (10 : ℝ)) (fun _ => 1)
          (fun _ => (0 : ℝ)) (fun _ => (1 : ℝ))).change (.type 0 .bin)).change
      (.bnd (fun _ => (0 : ℝ)) (fun _ => (5 : ℝ))), h1, ?_, rfl, ?_⟩
  · rw [history, glpChange, glpSetColKind, if_pos (by omega)]
    simp only [Option.map_some, if_true]
    rw [history, glpChange]
    simp only [hnc, h3, Option.map_some, if_true]
    rfl
  · intro hr hs hf
    have hint : ∃ j, j < 1 ∧ Function.update P.isInt 1 true (j + 1) = true := ⟨0, by decide, by simp⟩
    unfold glpSolve at hr hf
    unfold glpStatus at hs
    simp only [hnc, if_pos hint] at hr hf hs
    have hb := hL.intopt _ hr hs
    have hrow := h2.row 0 (by decide)
    have hmat := h2.mat 0 (by decide)
    have hobj := h2.obj 0 (by decide)
    simp only [dense, Finset.sum_range_one, Nat.zero_add] at hrow hmat hobj
    have hm1 : P.mat 1 1 = 1 := by simpa using hmat (fun _ => 1)
    have h5 := hb.2 (fun _ => 5) (by
      constructor
      · intro i hi hi'
        have : i = 1 := by simp only [hnr] at hi'; omega
        subst this
        simp only [Finset.Icc_self, Finset.sum_singleton, hm1, one_mul]
        have r5 : Rep 5 := rep_small (by norm_num)
        exact ⟨r5, (hrow 5 r5).2 ((within_le _ _).2 (by norm_num))⟩
      · intro j hj hj'
        have : j = 1 := by simp only at hj'; omega
        subst this
        have r5 : Rep 5 := rep_small (by norm_num)
        exact ⟨⟨r5, (h4 0 (by decide) 5 r5).2 ((within_coe _ _ _).2 (by norm_num))⟩,
          fun _ _ => ⟨5, by norm_num⟩⟩)
    have hd : P.dir = .max := h2.dir
    simp only [hd, Glp.value, Finset.Icc_self, Finset.sum_singleton, hobj, one_mul] at h5
    have := (hf.2 0 (by decide)).2.2.2 rfl
    simp only [Nat.zero_add, zero_lt_one, if_true, hd] at this
    rcases this with h6 | h6 <;> rw [h6] at h5 <;> linarith

/-- **C99 fails** for LP-Solve and a dense matrix with a constraint without bounds: it takes the place
of the next one, `x ≤ 1`, so the maximum of `x ≤ 2` is 2. -/
theorem C99_violates_lpsolve_free (L : LpsLib) (hL : LpsOk L) (h : Heap) (x : Nat → ℝ) :
    ∃ h' r y, lpLpsolve L h 2 1 (fun _ => 1) 2 (fun _ => ⊥)
        (fun i => if i = 1 then ((1 : ℝ) : EReal) else ⊤) (fun _ => 1) (fun _ => (0 : ℝ))
        (fun _ => (2 : ℝ)) x = some (h', r, y) ∧
      (r = 0 → ¬ (dense 2 1 (fun _ => 1) 2 (fun _ => ⊥)
        (fun i => if i = 1 then ((1 : ℝ) : EReal) else ⊤) (fun _ => 1) (fun _ => (0 : ℝ))
        (fun _ => (2 : ℝ))).Feasible y) := by
  have u1 : isUb (((1 : ℝ) : EReal)) := isUb_coe (by norm_num)
  have hrows : setCstr (fun i j => matref (fun _ => 1) 2 i j) (fun _ => ⊥)
      (fun i => if i = 1 then ((1 : ℝ) : EReal) else ⊤)
      (countRows (fun _ => ⊥) (fun i => if i = 1 then ((1 : ℝ) : EReal) else ⊤) 2 0) 2 0 1
      (List.replicate (countRows (fun _ => ⊥) (fun i => if i = 1 then ((1 : ℝ) : EReal) else ⊤) 2 0)
        ⟨fun _ => 0, .le, 0⟩) = .err [⟨fun _ => 1, .fr, 0⟩] := by
    have hc : countRows (fun _ => ⊥) (fun i => if i = 1 then ((1 : ℝ) : EReal) else ⊤) 2 0 = 1 := by
      have hu : isUb (1 : EReal) := by simpa using u1
      have hl : ¬ isLb ⊥ := not_isLb_bot
      have ht : ¬ isUb ⊤ := not_isUb_top
      simp [countRows, hl, ht, hu]
    have he : ¬ isEq ⊥ ((1 : ℝ) : EReal) := fun h => h.1.1 rfl
    rw [hc]
    have hu : isUb (1 : EReal) := by simpa using u1
    have he' : ¬ isEq ⊥ (1 : EReal) := by simpa using he
    simp [setCstr, not_isLb_bot, not_isUb_top, hu, he', setRow, matref]
  obtain ⟨b, h1, -⟩ := lpsBnd_spec (fun _ => ((0 : ℝ) : EReal)) (fun _ => ((2 : ℝ) : EReal)) ⟨1, .max,
    fun _ => 0, List.replicate (countRows (fun _ => ⊥)
      (fun i => if i = 1 then ((1 : ℝ) : EReal) else ⊤) 2 0) ⟨fun _ => 0, .le, 0⟩, fun _ => (0, ⊤)⟩
  obtain ⟨o, h2, -⟩ := lpsObj_spec (fun _ => 1) ⟨1, .max, fun _ => 0, List.replicate
    (countRows (fun _ => ⊥) (fun i => if i = 1 then ((1 : ℝ) : EReal) else ⊤) 2 0)
    ⟨fun _ => 0, .le, 0⟩, b⟩
  obtain ⟨o', b', h3, h4, h5⟩ := lpsFinish_spec (cxFinish (newProb h)) (fun _ => 1)
    (fun _ => ((0 : ℝ) : EReal)) (fun _ => ((2 : ℝ) : EReal))
    ⟨1, .max, o, [⟨fun _ => 1, .fr, 0⟩], b⟩
  have hgm : lpsGm h 2 1 (fun _ => 1) 2 (fun _ => ⊥)
        (fun i => if i = 1 then ((1 : ℝ) : EReal) else ⊤) (fun _ => 1) (fun _ => (0 : ℝ))
        (fun _ => (2 : ℝ)) = some (cxFinish (cxFinish (newProb h)),
          ⟨1, .max, o', [⟨fun _ => 1, .fr, 0⟩], b'⟩) := by
    unfold lpsGm
    simp only at h1 h2 h3 ⊢
    rw [h1, Option.bind_some, h2, Option.bind_some, lpsCstr]
    simp only
    rw [hrows, Option.bind_some]
    exact h3
  refine ⟨_, _, _, by rw [lpLpsolve, hgm, Option.bind_some, lpsSolve, if_pos rfl]; rfl, ?_⟩
  intro hr hf
  have hb := hL _ hr
  have r2 : Rep 2 := rep_small (by norm_num)
  have h6 := hb.2 (fun _ => 2) (by
    constructor
    · intro r hr
      simp only [List.mem_singleton] at hr
      subst hr
      exact ⟨by simpa [rowVal] using r2, trivial⟩
    · intro j hj
      have : j = 0 := by simp only at hj; omega
      subst this
      refine ⟨r2, ?_⟩
      simp only [h5 0 Nat.one_pos]
      exact ⟨by exact_mod_cast (by norm_num : (0 : ℝ) ≤ 2), le_rfl⟩)
  simp only [rowVal, Finset.sum_range_one, h4 0 Nat.one_pos, one_mul] at h6
  have h7 := (hf.1 1 (by decide)).2
  simp only [dense, Finset.sum_range_one, one_mul, if_true, within_le, zero_lt_one] at h7
  linarith

/-- **C99 fails** for LP-Solve and a dense matrix with an equality: an assertion fails. -/
theorem C99_violates_lpsolve_eq (L : LpsLib) (h : Heap) (A : Nat → ℝ) (lda : Nat) (n : Nat) (b : ℝ)
    (hb : |b| ≤ 100) (c : Nat → ℝ) (xl xu : Nat → EReal) (x : Nat → ℝ) :
    lpLpsolve L h 1 n A lda (fun _ => (b : EReal)) (fun _ => (b : EReal)) c xl xu x = none := by
  have hd := hundred_lt
  have h1 : isLb (b : EReal) := by
    refine ⟨?_, EReal.coe_ne_bot _, EReal.coe_ne_top _⟩
    have := abs_le.1 hb
    exact_mod_cast (by linarith : -dblMax < b)
  have h2 : isUb (b : EReal) := by
    refine ⟨?_, EReal.coe_ne_bot _, EReal.coe_ne_top _⟩
    have := abs_le.1 hb
    exact_mod_cast (by linarith : b < dblMax)
  have he : isEq (b : EReal) (b : EReal) := ⟨h1.2, rfl⟩
  obtain ⟨b1, e1, -⟩ := lpsBnd_spec xl xu ⟨n, .max, fun _ => 0, List.replicate
    (countRows (fun _ => (b : EReal)) (fun _ => (b : EReal)) 1 0) ⟨fun _ => 0, .le, 0⟩, fun _ => (0, ⊤)⟩
  obtain ⟨o, e2, -⟩ := lpsObj_spec c ⟨n, .max, fun _ => 0, List.replicate
    (countRows (fun _ => (b : EReal)) (fun _ => (b : EReal)) 1 0) ⟨fun _ => 0, .le, 0⟩, b1⟩
  unfold lpLpsolve lpsGm
  simp only at e1 e2 ⊢
  rw [e1, Option.bind_some, e2, Option.bind_some, lpsCstr]
  simp [countRows, h1, h2, setCstr, he, setRow]

/-- **C99 fails** for LP-Solve and a change of the constraints: a row that the new constraints do not
need stays.  After `0 ≤ x ≤ 1` was changed to `x ≤ 5`, the minimum of `x` between -3 and 5 is still
0. -/
theorem C99_violates_lpsolve_change (L : LpsLib) (hL : LpsOk L) (h : Heap) (x : Nat → ℝ) :
    ∃ h' P P' p r y, lpsGm h 1 1 (fun _ => 1) 1 (fun _ => (0 : ℝ)) (fun _ => (1 : ℝ)) (fun _ => 1)
        (fun _ => (-3 : ℝ)) (fun _ => (5 : ℝ)) = some (h', P) ∧
      history (lpsChange 1 1) [.dir .min, .cstr (fun _ => 1) 1 (fun _ => ⊥) (fun _ => (5 : ℝ))] P
        (dense 1 1 (fun _ => 1) 1 (fun _ => (0 : ℝ)) (fun _ => (1 : ℝ)) (fun _ => 1)
          (fun _ => (-3 : ℝ)) (fun _ => (5 : ℝ))) = some (P', p) ∧
      lpsSolve L P' 1 x = some (r, y) ∧ (r = 0 → ¬ p.Optimal y) := by
  have l0 : isLb ((0 : ℝ) : EReal) := isLb_coe (by norm_num)
  have u1 : isUb ((1 : ℝ) : EReal) := isUb_coe (by norm_num)
  have u5 : isUb ((5 : ℝ) : EReal) := ⟨by
    have := hundred_lt
    exact_mod_cast (by linarith : (5 : ℝ) < dblMax), EReal.coe_ne_bot _, EReal.coe_ne_top _⟩
  have ne : ((0 : ℝ) : EReal) ≠ ((1 : ℝ) : EReal) := by simp
  have hrows : lpsolveCrs (fun i j => matref (fun _ => 1) 1 i j) (fun _ => ((0 : ℝ) : EReal))
      (fun _ => ((1 : ℝ) : EReal)) 1 0 =
      [⟨fun _ => 1, .le, ((1 : ℝ) : EReal)⟩, ⟨fun _ => 1, .ge, ((0 : ℝ) : EReal)⟩] := by
    have he : ¬ isEq ((0 : ℝ) : EReal) ((1 : ℝ) : EReal) := fun h => ne h.2
    rw [lpsolveCrs]
    simp only [if_neg he, l0, u1, not_true_eq_false, and_false, false_and, if_false]
    rfl
  obtain ⟨b, e1, -⟩ := lpsBnd_spec (fun _ => ((-3 : ℝ) : EReal)) (fun _ => ((5 : ℝ) : EReal)) ⟨1, .max,
    fun _ => 0, List.replicate (countRows (fun _ => ((0 : ℝ) : EReal))
      (fun _ => ((1 : ℝ) : EReal)) 1 0) ⟨fun _ => 0, .le, 0⟩, fun _ => (0, ⊤)⟩
  obtain ⟨o, e2, -⟩ := lpsObj_spec (fun _ => 1) ⟨1, .max, fun _ => 0, List.replicate
    (countRows (fun _ => ((0 : ℝ) : EReal)) (fun _ => ((1 : ℝ) : EReal)) 1 0)
    ⟨fun _ => 0, .le, 0⟩, b⟩
  obtain ⟨o', b', e3, e4, e5⟩ := lpsFinish_spec (cxFinish (newProb h)) (fun _ => 1)
    (fun _ => ((-3 : ℝ) : EReal)) (fun _ => ((5 : ℝ) : EReal))
    ⟨1, .max, o, lpsolveCrs (fun i j => matref (fun _ => 1) 1 i j) (fun _ => ((0 : ℝ) : EReal))
      (fun _ => ((1 : ℝ) : EReal)) 1 0, b⟩
  have hset : setCstr (fun i j => matref (fun _ => 1) 1 i j) (fun _ => ⊥)
      (fun _ => ((5 : ℝ) : EReal)) (countRows (fun _ => ⊥) (fun _ => ((5 : ℝ) : EReal)) 1 0) 1 0 1
      [⟨fun _ => 1, .le, ((1 : ℝ) : EReal)⟩, ⟨fun _ => 1, .ge, ((0 : ℝ) : EReal)⟩] =
      .ok [⟨fun _ => 1, .le, ((5 : ℝ) : EReal)⟩, ⟨fun _ => 1, .ge, ((0 : ℝ) : EReal)⟩] := by
    have he : ¬ isEq ⊥ ((5 : ℝ) : EReal) := fun h => h.1.1 rfl
    simp only [setCstr, countRows, not_isLb_bot, u5, he, setRow]
    simp [matref]
  refine ⟨cxFinish (cxFinish (newProb h)), ⟨1, .max, o', [⟨fun _ => 1, .le, ((1 : ℝ) : EReal)⟩,
    ⟨fun _ => 1, .ge, ((0 : ℝ) : EReal)⟩], b'⟩, ⟨1, .min, o', [⟨fun _ => 1, .le, ((5 : ℝ) : EReal)⟩,
    ⟨fun _ => 1, .ge, ((0 : ℝ) : EReal)⟩], b'⟩,
    ((dense 1 1 (fun _ => 1) 1 (fun _ => (0 : ℝ)) (fun _ => (1 : ℝ)) (fun _ => 1)
      (fun _ => (-3 : ℝ)) (fun _ => (5 : ℝ))).change (.dir .min)).change
      (.cstr (fun _ => 1) 1 (fun _ => ⊥) (fun _ => (5 : ℝ))), _, _, ?_, ?_, if_pos rfl, ?_⟩
  · unfold lpsGm
    simp only at e1 e2 e3 ⊢
    rw [e1, Option.bind_some, e2, Option.bind_some, lpsCstr]
    simp only
    rw [lpsolveGm_eq 1 _ _ _ (fun _ _ => Or.inl l0) (fun _ _ => ne), Option.bind_some, e3, hrows]
  · rw [history, lpsChange]
    simp only [if_true]
    rw [history, lpsChange, lpsCstr]
    simp only
    rw [hset]
    simp only [if_true]
    rfl
  · intro hr hopt
    have hb := hL _ hr
    have h1 := (hb.1.1 ⟨fun _ => 1, .ge, ((0 : ℝ) : EReal)⟩ (by simp)).2
    simp only [LpRow.Allows, rowVal, Finset.sum_range_one, one_mul] at h1
    have h1 : (0 : ℝ) ≤ (L ⟨1, .min, o', [⟨fun _ => 1, .le, ((5 : ℝ) : EReal)⟩,
      ⟨fun _ => 1, .ge, ((0 : ℝ) : EReal)⟩], b'⟩).2 0 := by exact_mod_cast h1
    have r3 : Rep (-3) := rep_small (by norm_num)
    have h2 := hopt.2 (fun _ => -3) (by
      constructor
      · intro i hi
        simp only [Prog.change, dense, Finset.sum_range_one, one_mul, within_le]
        exact ⟨r3, by norm_num⟩
      · intro j hj
        simp only [Prog.change, dense, within_coe]
        exact ⟨r3, by norm_num, by simp, by simp⟩)
    simp only [Prog.change, Prog.value, dense, Finset.sum_range_one, one_mul, zero_lt_one, if_true] at h2
    linarith

/-- The hypotheses of `C99_glpk_partial` are met and its conclusion says something: a library that keeps
its contract, and a program that it solves, `max x` for `x ≤ 1` and `0 ≤ x ≤ 2`. -/
example (h : Heap) (x : Nat → ℝ) : ∃ h' P, glpGm h 1 1 (fun _ => 1) 1 (fun _ => ⊥) (fun _ => (1 : ℝ))
      (fun _ => 1) (fun _ => (0 : ℝ)) (fun _ => (2 : ℝ)) = some (h', P) ∧
    (glpSolve refGlp P 1 x).1 = 0 ∧ glpStatus refGlp P = true ∧ (glpSolve refGlp P 1 x).2 0 = 1 := by
  obtain ⟨P, h1, h2⟩ := glpGm_inv h 1 1 le_rfl le_rfl (fun _ => 1) 1 (fun _ => ⊥)
    (fun _ => (1 : ℝ)) (fun _ => 1) (fun _ => (0 : ℝ)) (fun _ => (2 : ℝ))
  have hint : ∀ j, j < P.nc → P.isInt (j + 1) = false := by
    intro j hj
    have := h2.kind j (by rw [← h2.nc]; exact hj)
    by_contra hc
    have := this.1 (by simpa using hc)
    simp [dense] at this
  have hni : ¬ ∃ j, j < P.nc ∧ P.isInt (j + 1) = true := by
    rintro ⟨j, hj, hj'⟩; rw [hint j hj] at hj'; simp at hj'
  have r1 : Rep 1 := rep_small (by norm_num)
  have hf : ∀ y : Nat → ℝ, P.Feasible false y → y 1 ≤ 1 := by
    intro y hy
    have := ((glp_feasible h2 false (Or.inr hint) (fun k => y (k + 1)) y (fun _ _ => rfl)).1 hy).1 0
      (by decide)
    have := this.2
    simp only [dense, Finset.sum_range_one, one_mul, within_le] at this
    exact this
  have hbest : Best P.dir (P.Feasible false) P.value (fun _ => 1) := by
    refine ⟨(glp_feasible h2 false (Or.inr hint) (fun _ => 1) _ (fun _ _ => rfl)).2 ⟨?_, ?_⟩, ?_⟩
    · intro i _
      simp only [dense, Finset.sum_range_one, one_mul, within_le]
      exact ⟨r1, le_rfl⟩
    · intro j _
      simp only [dense, within_coe]
      exact ⟨r1, by norm_num, by simp, by simp⟩
    · intro y hy
      have hd : P.dir = .max := h2.dir
      have hn : P.nc = 1 := h2.nc
      have ho := h2.obj 0 (by decide)
      simp only [dense, Nat.zero_add] at ho
      simp only [hd, Glp.value, hn, Finset.Icc_self, Finset.sum_singleton, ho, one_mul]
      linarith [hf y hy]
  have hs : glpStatus refGlp P = true := by
    unfold glpStatus
    rw [if_neg hni]
    exact pick_of hbest
  have hr : (glpSolve refGlp P 1 x).1 = 0 := by
    unfold glpSolve
    simp only [if_neg hni]
    rfl
  refine ⟨_, P, h1, hr, hs, ?_⟩
  have ho := glpSolve_opt refGlp_ok h2 x hr hs
  have a1 := (ho.1.1 0 (by decide)).2
  simp only [dense, Finset.sum_range_one, one_mul, within_le] at a1
  have a2 := ho.2 (fun _ => 1) ((glp_feasible h2 false (Or.inr hint) _ _ (fun _ _ => rfl)).1 hbest.1)
  simp only [dense, Prog.value, Finset.sum_range_one, one_mul] at a2
  exact le_antisymm a1 a2

/-- A proper sparse matrix: two rows, `x₀ + 2 x₂` and `3 x₁`. -/
example : GoodCrs 2 3 ⟨fun k => k + 1, fun k => [0, 2, 1].getD k 0, fun i => [0, 2, 3].getD i 0⟩ where
  mono := by
    intro i hi
    rcases (by omega : i = 0 ∨ i = 1) with h | h <;> subst h <;> simp
  col := by
    intro i hi k h1 h2
    rcases (by omega : i = 0 ∨ i = 1) with h | h <;> subst h <;> simp at h1 h2
    · rcases (by omega : k = 0 ∨ k = 1) with h | h <;> subst h <;> simp
    · rcases (by omega : k = 2) with h; subst h; simp
  ne := by
    intro i hi k k' h1 h2 h3 h4
    rcases (by omega : i = 0 ∨ i = 1) with h | h <;> subst h <;> simp at h1 h2 h3 h4
    · rcases (by omega : k = 0 ∨ k = 1) with h | h <;> rcases (by omega : k' = 0 ∨ k' = 1) with h' | h' <;>
        subst h <;> subst h' <;> simp
    · have : k = k' := by omega
      simp [this]

/-! ## C100 -/

/-- **C100**: the one-call functions that release everything: after `aa_opt_lp_glpk`, `aa_opt_lp_clp`,
`aa_opt_lp_crs_clp` and `aa_opt_lp_crs_lpsolve`, whatever the program and the solver, as many contexts
and problems are live as before.  Missing: the two others (`C100_violates_glpk_crs`,
`C100_violates_lpsolve`). -/
theorem C100_partial (h : Heap) (m n : Nat) (A : Nat → ℝ) (lda : Nat) (C : Crs)
    (bl bu : Nat → EReal) (c : Nat → ℝ) (xl xu : Nat → EReal) (x : Nat → ℝ) (h' : Heap)
    (r : Int × (Nat → ℝ)) :
    (∀ L, lpGlpk L h m n A lda bl bu c xl xu x = some (h', r) → h' = h) ∧
    (∀ L, lpClp L h m n A lda bl bu c xl xu x = some (h', r) → h' = h) ∧
    (∀ L, lpCrsClp L h m n C bl bu c xl xu x = some (h', r) → h' = h) ∧
    ∀ L, lpCrsLpsolve L h m n C bl bu c xl xu x = some (h', r) → h' = h := by
  refine ⟨fun L e => ?_, fun L e => ?_, fun L e => ?_, fun L e => ?_⟩
  · simp only [lpGlpk, glpGm, glpInit, Option.map_eq_some_iff, Option.bind_eq_some_iff] at e
    obtain ⟨a, ⟨b, ⟨P, -, rfl⟩, P', -, rfl⟩, e⟩ := e
    exact (congrArg Prod.fst e).symm
  · simp only [lpClp, clpGm, Option.map_eq_some_iff] at e
    obtain ⟨a, ⟨P, -, rfl⟩, e⟩ := e
    exact (congrArg Prod.fst e).symm
  · simp only [lpCrsClp, clpCrs, Option.map_eq_some_iff] at e
    obtain ⟨a, ⟨P, -, rfl⟩, e⟩ := e
    exact (congrArg Prod.fst e).symm
  · simp only [lpCrsLpsolve, lpsCrs, lpsFinish, Option.map_eq_some_iff, Option.bind_eq_some_iff] at e
    split_ifs at e
    · simp only [Option.map_eq_some_iff] at e
      obtain ⟨a, ⟨P, -, rfl⟩, b, -, e⟩ := e
      exact (congrArg Prod.fst e).symm
    · obtain ⟨a, e, -⟩ := e
      simp at e

/-- **C100 fails** for `aa_opt_lp_crs_glpk`: every call loses a context. -/
theorem C100_violates_glpk_crs (L : GlpLib) (h : Heap) (m n : Nat) (hm : 1 ≤ m) (hn : 1 ≤ n) (C : Crs)
    (hC : GoodCrs m n C) (bl bu : Nat → EReal) (c : Nat → ℝ) (xl xu : Nat → EReal) (x : Nat → ℝ) :
    ∃ r, lpCrsGlpk L h m n C bl bu c xl xu x = some (⟨h.cx + 1, h.prob⟩, r) := by
  obtain ⟨P, h1, -⟩ := glpCrs_inv h m n hm hn C hC bl bu c xl xu
  exact ⟨_, by rw [lpCrsGlpk, h1]; rfl⟩

/-- **C100 fails** for `aa_opt_lp_lpsolve`: every call loses a context. -/
theorem C100_violates_lpsolve (L : LpsLib) (h : Heap) (m n : Nat) (A : Nat → ℝ) (lda : Nat)
    (bl bu : Nat → EReal) (c : Nat → ℝ) (xl xu : Nat → EReal) (x : Nat → ℝ)
    (hb : ∀ i, i < m → isLb (bl i) ∨ isUb (bu i)) (he : ∀ i, i < m → bl i ≠ bu i) :
    ∃ r, lpLpsolve L h m n A lda bl bu c xl xu x = some (⟨h.cx + 1, h.prob⟩, r) := by
  obtain ⟨P, h1, h2⟩ := lpsGm_inv h m n A lda bl bu c xl xu hb he
  have hn : n = P.nc := h2.nc.symm
  refine ⟨((L P).1, fun j => if j < P.nc then (L P).2 j else x j), ?_⟩
  rw [lpLpsolve, h1, Option.bind_some, lpsSolve]
  simp only [if_pos hn]
  rfl

end Verif.Lp
