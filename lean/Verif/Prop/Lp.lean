import Verif.Model.Lp
import Verif.Prop.Opt

/-!
# C99: result zero of a linear program solver means an optimum of the described program
-/

namespace Verif.Lp

open Verif.Opt

/-! ## Specification -/

/-- A linear program as the user describes it: `row i` is the value of constraint `i` at a point. -/
structure Prog where
  m : Nat
  n : Nat
  row : Nat → (Nat → ℝ) → ℝ
  bl : Nat → EReal
  bu : Nat → EReal
  c : Nat → ℝ
  xl : Nat → EReal
  xu : Nat → EReal
  dir : Dir
  kind : Nat → Kind

/-- The points that the program allows: every variable and every constraint has a value in the range of
doubles, is within its bounds, and integer and binary variables are that. -/
def Prog.Feasible (p : Prog) (x : Nat → ℝ) : Prop :=
  (∀ i, i < p.m → Rep (p.row i x) ∧ Within (p.bl i) (p.bu i) (p.row i x)) ∧
  ∀ j, j < p.n → Rep (x j) ∧ Within (p.xl j) (p.xu j) (x j) ∧
    (p.kind j = .int → ∃ z : ℤ, x j = z) ∧ (p.kind j = .bin → x j = 0 ∨ x j = 1)

/-- The objective. -/
def Prog.value (p : Prog) (x : Nat → ℝ) : ℝ := ∑ j ∈ Finset.range p.n, p.c j * x j

/-- A point of `F` where `v` is best. -/
def Best (d : Dir) (F : (Nat → ℝ) → Prop) (v : (Nat → ℝ) → ℝ) (x : Nat → ℝ) : Prop :=
  F x ∧ ∀ y, F y → match d with
    | .max => v y ≤ v x
    | .min => v x ≤ v y

/-- An optimal solution of a program. -/
def Prog.Optimal (p : Prog) (x : Nat → ℝ) : Prop := Best p.dir p.Feasible p.value x

/-- The program that a matrix in columns of `lda` elements describes; it is to be maximized. -/
def dense (m n : Nat) (A : Nat → ℝ) (lda : Nat) (bl bu : Nat → EReal) (c : Nat → ℝ)
    (xl xu : Nat → EReal) : Prog :=
  ⟨m, n, fun i x => ∑ j ∈ Finset.range n, A (lda * j + i) * x j, bl, bu, c, xl, xu, .max,
    fun _ => .cont⟩

/-- The program that a matrix in compressed rows describes. -/
def crs (m n : Nat) (C : Crs) (bl bu : Nat → EReal) (c : Nat → ℝ) (xl xu : Nat → EReal) : Prog :=
  ⟨m, n, fun i x => ∑ k ∈ Finset.Ico (C.ptr i) (C.ptr (i + 1)), C.val k * x (C.col k), bl, bu, c,
    xl, xu, .max, fun _ => .cont⟩

/-- A proper matrix in compressed rows: the columns of a row exist and differ. -/
structure GoodCrs (m n : Nat) (C : Crs) : Prop where
  mono : ∀ i, i < m → C.ptr i ≤ C.ptr (i + 1)
  col : ∀ i, i < m → ∀ k, C.ptr i ≤ k → k < C.ptr (i + 1) → C.col k < n
  ne : ∀ i, i < m → ∀ k k', C.ptr i ≤ k → k < C.ptr (i + 1) → C.ptr i ≤ k' → k' < C.ptr (i + 1) →
    C.col k = C.col k' → k = k'

/-- What a call describes. -/
def Prog.change (p : Prog) : Change → Prog
  | .dir d => { p with dir := d }
  | .obj c => { p with c := c }
  | .bnd xl xu => { p with xl := xl, xu := xu }
  | .cstr A lda bl bu =>
    { p with row := fun i x => ∑ j ∈ Finset.range p.n, A (lda * j + i) * x j, bl := bl, bu := bu }
  | .type j k => { p with kind := Function.update p.kind j k }

/-- The calls of a user on a context, with the program described so far: a refused call (a result other
than zero) describes nothing. -/
def history {σ : Type} (chg : σ → Change → Option (Int × σ)) :
    List Change → σ → Prog → Option (σ × Prog)
  | [], s, p => some (s, p)
  | ch :: chs, s, p =>
    match chg s ch with
    | none => none
    | some (r, s) => history chg chs s (if r = 0 then p.change ch else p)

/-! ### Contracts of the solver libraries -/

/-- The values that a GLPK problem allows its row `i` or column `j`. -/
def glpIn (b : GlpType × EReal × EReal) (v : ℝ) : Prop := Rep v ∧ glpAllows b.1 b.2.1 b.2.2 v

/-- The points that a GLPK problem allows; `ints` for the integer solver. -/
def Glp.Feasible (P : Glp) (ints : Bool) (y : Nat → ℝ) : Prop :=
  (∀ i, 1 ≤ i → i ≤ P.nr → glpIn (P.row i) (∑ j ∈ Finset.Icc 1 P.nc, P.mat i j * y j)) ∧
  ∀ j, 1 ≤ j → j ≤ P.nc → glpIn (P.col j) (y j) ∧
    (ints = true → P.isInt j = true → ∃ z : ℤ, y j = z)

/-- The objective of a GLPK problem. -/
def Glp.value (P : Glp) (y : Nat → ℝ) : ℝ := P.obj 0 + ∑ j ∈ Finset.Icc 1 P.nc, P.obj j * y j

/-- The contract of GLPK: if a solver returns zero *and* the status is `GLP_OPT`, the values are
optimal. -/
structure GlpOk (L : GlpLib) : Prop where
  simplex : ∀ P, (L.simplex P).ret = 0 → (L.simplex P).opt = true →
    Best P.dir (P.Feasible false) P.value (L.simplex P).x
  intopt : ∀ P, (L.intopt P).ret = 0 → (L.intopt P).opt = true →
    Best P.dir (P.Feasible true) P.value (L.intopt P).x

/-- The points that a CLP model allows. -/
def Clp.Feasible (P : Clp) (y : Nat → ℝ) : Prop :=
  (∀ i, i < P.nr → Rep (rowVal P.nc (P.mat i) y) ∧ clpAllows (P.row i) (rowVal P.nc (P.mat i) y)) ∧
  ∀ j, j < P.nc → Rep (y j) ∧ clpAllows (P.col j) (y j)

/-- The contract of CLP: result zero means optimal. -/
def ClpOk (L : ClpLib) : Prop :=
  ∀ P r, L P = some r → r.1 = 0 → Best P.dir P.Feasible (fun y => rowVal P.nc P.obj y) r.2

/-- The points that an LP-Solve problem allows. -/
def Lps.Feasible (P : Lps) (y : Nat → ℝ) : Prop :=
  (∀ r ∈ P.rows, Rep (rowVal P.nc r.coef y) ∧ r.Allows P.nc y) ∧
  ∀ j, j < P.nc → Rep (y j) ∧ rawAllows (P.col j).1 (P.col j).2 (y j)

/-- The contract of LP-Solve: result zero (`OPTIMAL`) means optimal. -/
def LpsOk (L : LpsLib) : Prop :=
  ∀ P, (L P).1 = 0 → Best P.dir P.Feasible (fun y => rowVal P.nc P.obj y) (L P).2

/-! ## Loops -/

theorem loop_inv {σ : Type} (f : Nat → σ → Option σ) (Inv : Nat → σ → Prop) (n : Nat)
    (step : ∀ i s, i < n → Inv i s → ∃ s', f i s = some s' ∧ Inv (i + 1) s') (s : σ) (h : Inv 0 s) :
    ∃ s', loop f n 0 s = some s' ∧ Inv n s' := by
  have key : ∀ k i s, i + k = n → Inv i s → ∃ s', loop f k i s = some s' ∧ Inv n s' := by
    intro k
    induction k with
    | zero =>
      intro i s hi h
      have : i = n := by omega
      exact ⟨s, rfl, this ▸ h⟩
    | succ k ih =>
      intro i s hi h
      obtain ⟨s', h1, h2⟩ := step i s (by omega) h
      obtain ⟨s'', h3, h4⟩ := ih (i + 1) s' (by omega) h2
      refine ⟨s'', ?_, h4⟩
      rw [loop, h1]
      exact h3
  exact key n 0 s (by omega) h

theorem sum_Icc_one (n : Nat) (f : Nat → ℝ) :
    ∑ j ∈ Finset.Icc 1 n, f j = ∑ j ∈ Finset.range n, f (j + 1) := by
  induction n with
  | zero => simp
  | succ n ih => rw [Finset.sum_Icc_succ_top (by omega), ih, Finset.sum_range_succ]

/-- The value of a row given by its elements. -/
theorem sum_sparse (n len : Nat) (ind : Nat → Nat) (val x : Nat → ℝ) (h : ∀ k, k < len → ind k < n) :
    ∑ j ∈ Finset.range n, (∑ k ∈ Finset.range len, if ind k = j then val k else 0) * x j =
      ∑ k ∈ Finset.range len, val k * x (ind k) := by
  simp_rw [Finset.sum_mul]
  rw [Finset.sum_comm]
  refine Finset.sum_congr rfl fun k hk => ?_
  rw [Finset.sum_eq_single (ind k)]
  · simp
  · intro j _ hj; rw [if_neg (fun e => hj e.symm), zero_mul]
  · intro hn; exact absurd (Finset.mem_range.2 (h k (Finset.mem_range.1 hk))) hn

theorem sum_ptr (C : Crs) (i : Nat) (x : Nat → ℝ) :
    ∑ k ∈ Finset.range (C.ptr (i + 1) - C.ptr i), C.val (C.ptr i + k) * x (C.col (C.ptr i + k)) =
      ∑ k ∈ Finset.Ico (C.ptr i) (C.ptr (i + 1)), C.val k * x (C.col k) := by
  rw [Finset.sum_Ico_eq_sum_range]

/-! ## GLPK -/

/-- The object holds the program. -/
structure GlpInv (p : Prog) (P : Glp) : Prop where
  nr : P.nr = p.m
  nc : P.nc = p.n
  dir : P.dir = p.dir
  obj : ∀ j, j < p.n → P.obj (j + 1) = p.c j
  row : ∀ i, i < p.m → ∀ v, Rep v →
    (glpAllows (P.row (i + 1)).1 (P.row (i + 1)).2.1 (P.row (i + 1)).2.2 v ↔ Within (p.bl i) (p.bu i) v)
  col : ∀ j, j < p.n → ∀ v, Rep v →
    (glpAllows (P.col (j + 1)).1 (P.col (j + 1)).2.1 (P.col (j + 1)).2.2 v ↔ Within (p.xl j) (p.xu j) v)
  mat : ∀ i, i < p.m → ∀ x, ∑ j ∈ Finset.range p.n, P.mat (i + 1) (j + 1) * x j = p.row i x
  kind : ∀ j, j < p.n → (P.isInt (j + 1) = true ↔ p.kind j = .int)
  bin : ∀ j, j < p.n → p.kind j ≠ .bin

theorem glpObj_spec (c : Nat → ℝ) (P : Glp) : ∃ o, glpObj P.nc c P = some { P with obj := o } ∧
    ∀ j, j < P.nc → o (j + 1) = c j := by
  obtain ⟨s, h1, o, rfl, h2⟩ := loop_inv (fun j P => glpSetObjCoef P (j + 1) (c j))
    (fun k (s : Glp) => ∃ o, s = { P with obj := o } ∧ ∀ j, j < k → o (j + 1) = c j) P.nc (by
      rintro i s hi ⟨o, rfl, h⟩
      refine ⟨_, if_pos (by show i + 1 ≤ P.nc; omega), _, rfl, fun j hj => ?_⟩
      by_cases e : j = i
      · subst e; rw [Function.update_self]
      · rw [Function.update_of_ne (by omega)]; exact h j (by omega)) P ⟨P.obj, rfl, by omega⟩
  exact ⟨o, h1, h2⟩

theorem glpBnd_spec (xl xu : Nat → EReal) (P : Glp) :
    ∃ b, glpBnd P.nc xl xu P = some { P with col := b } ∧ ∀ j, j < P.nc → ∀ v, Rep v →
      (glpAllows (b (j + 1)).1 (b (j + 1)).2.1 (b (j + 1)).2.2 v ↔ Within (xl j) (xu j) v) := by
  obtain ⟨s, h1, o, rfl, h2⟩ := loop_inv (fun j P => (boundsType (xl j) (xu j)).bind fun t =>
      glpSetColBnds P (j + 1) (t, xl j, xu j))
    (fun k (s : Glp) => ∃ b, s = { P with col := b } ∧ ∀ j, j < k → ∀ v, Rep v →
      (glpAllows (b (j + 1)).1 (b (j + 1)).2.1 (b (j + 1)).2.2 v ↔ Within (xl j) (xu j) v)) P.nc (by
      rintro i s hi ⟨o, rfl, h⟩
      obtain ⟨t, ht, hv⟩ := C59_glpk (xl i) (xu i)
      refine ⟨_, by rw [ht]; exact if_pos (by show 1 ≤ i + 1 ∧ i + 1 ≤ P.nc; omega), _, rfl,
        fun j hj => ?_⟩
      by_cases e : j = i
      · subst e; rw [Function.update_self]; exact hv
      · rw [Function.update_of_ne (by omega)]; exact h j (by omega)) P ⟨P.col, rfl, by omega⟩
  exact ⟨o, h1, h2⟩

theorem glpCstrBnd_spec (bl bu : Nat → EReal) (P : Glp) :
    ∃ b, glpCstrBnd P.nr bl bu P = some { P with row := b } ∧ ∀ j, j < P.nr → ∀ v, Rep v →
      (glpAllows (b (j + 1)).1 (b (j + 1)).2.1 (b (j + 1)).2.2 v ↔ Within (bl j) (bu j) v) := by
  obtain ⟨s, h1, o, rfl, h2⟩ := loop_inv (fun j P => (boundsType (bl j) (bu j)).bind fun t =>
      glpSetRowBnds P (j + 1) (t, bl j, bu j))
    (fun k (s : Glp) => ∃ b, s = { P with row := b } ∧ ∀ j, j < k → ∀ v, Rep v →
      (glpAllows (b (j + 1)).1 (b (j + 1)).2.1 (b (j + 1)).2.2 v ↔ Within (bl j) (bu j) v)) P.nr (by
      rintro i s hi ⟨o, rfl, h⟩
      obtain ⟨t, ht, hv⟩ := C59_glpk (bl i) (bu i)
      refine ⟨_, by rw [ht]; exact if_pos (by show 1 ≤ i + 1 ∧ i + 1 ≤ P.nr; omega), _, rfl,
        fun j hj => ?_⟩
      by_cases e : j = i
      · subst e; rw [Function.update_self]; exact hv
      · rw [Function.update_of_ne (by omega)]; exact h j (by omega)) P ⟨P.row, rfl, by omega⟩
  exact ⟨o, h1, h2⟩

theorem glpMatGm_spec (A : Nat → ℝ) (lda : Nat) (P : Glp) :
    ∃ a, glpMatGm P.nr P.nc A lda P = some { P with mat := a } ∧
      ∀ i, i < P.nr → ∀ j, j < P.nc → a (i + 1) (j + 1) = A (lda * j + i) := by
  obtain ⟨s, h1, o, rfl, h2⟩ := loop_inv (fun j P' => glpSetMatCol P' (j + 1) P.nr
      (fun k => (k - 1) + 1) (fun k => matref A lda (k - 1) j))
    (fun k (s : Glp) => ∃ a, s = { P with mat := a } ∧
      ∀ i, i < P.nr → ∀ j, j < k → a (i + 1) (j + 1) = A (lda * j + i)) P.nc (by
      rintro c s hc ⟨o, rfl, h⟩
      have hg : GoodInd P.nr P.nr (fun k => (k - 1) + 1) :=
        ⟨fun k h1 h2 => by show 1 ≤ k - 1 + 1 ∧ k - 1 + 1 ≤ P.nr; omega,
          fun k k' h1 _ h2 _ e => by
            have e : k - 1 + 1 = k' - 1 + 1 := e
            omega⟩
      refine ⟨_, if_pos ⟨by omega, by show c + 1 ≤ P.nc; omega, le_rfl, hg⟩, _, rfl,
        fun i hi j hj => ?_⟩
      by_cases e : j = c
      · subst e
        rw [if_pos rfl, sparse, sum_Icc_one, Finset.sum_eq_single i]
        · simp [matref, mul_comm]
        · intro k _ hk; rw [if_neg (by omega)]
        · intro hn; exact absurd (Finset.mem_range.2 hi) hn
      · rw [if_neg (by omega)]; exact h i hi j (by omega)) P ⟨P.mat, rfl, by omega⟩
  exact ⟨o, h1, h2⟩

theorem glpMatCrs_spec (C : Crs) (P : Glp) (hC : GoodCrs P.nr P.nc C) :
    ∃ a, glpMatCrs P.nr C P = some { P with mat := a } ∧
      ∀ i, i < P.nr → ∀ x : Nat → ℝ, ∑ j ∈ Finset.range P.nc, a (i + 1) (j + 1) * x j =
        ∑ k ∈ Finset.Ico (C.ptr i) (C.ptr (i + 1)), C.val k * x (C.col k) := by
  obtain ⟨s, h1, o, rfl, h2⟩ := loop_inv (fun i P =>
    if C.ptr (i + 1) < C.ptr i then none
    else glpSetMatRow P (i + 1) (C.ptr (i + 1) - C.ptr i) (fun k => C.col (C.ptr i + (k - 1)) + 1)
      (fun k => C.val (C.ptr i + (k - 1))))
    (fun k (s : Glp) => ∃ a, s = { P with mat := a } ∧
      ∀ i, i < k → ∀ x : Nat → ℝ, ∑ j ∈ Finset.range P.nc, a (i + 1) (j + 1) * x j =
        ∑ k ∈ Finset.Ico (C.ptr i) (C.ptr (i + 1)), C.val k * x (C.col k)) P.nr (by
      rintro r s hr ⟨o, rfl, h⟩
      have hm := hC.mono r hr
      have hlen : C.ptr (r + 1) - C.ptr r ≤ P.nc := by
        have := Finset.card_le_card_of_injOn (s := Finset.Ico (C.ptr r) (C.ptr (r + 1)))
          (t := Finset.range P.nc) C.col
          (fun k hk => by
            have hk := Finset.mem_Ico.1 hk
            exact Finset.mem_coe.2 (Finset.mem_range.2 (hC.col r hr k hk.1 hk.2)))
          (fun k hk k' hk' e => by
            have hk := Finset.mem_Ico.1 hk
            have hk' := Finset.mem_Ico.1 hk'
            exact hC.ne r hr k k' hk.1 hk.2 hk'.1 hk'.2 e)
        simpa using this
      have hg : GoodInd P.nc (C.ptr (r + 1) - C.ptr r)
          (fun k => C.col (C.ptr r + (k - 1)) + 1) := by
        constructor
        · intro k k1 k2
          have := hC.col r hr (C.ptr r + (k - 1)) (by omega) (by omega)
          show 1 ≤ C.col _ + 1 ∧ C.col _ + 1 ≤ P.nc
          omega
        · intro k k' k1 k2 k3 k4 e
          have := hC.ne r hr (C.ptr r + (k - 1)) (C.ptr r + (k' - 1)) (by omega) (by omega) (by omega)
            (by omega) (by simpa using e)
          omega
      refine ⟨_, by rw [if_neg (by omega)]; exact if_pos ⟨by omega, by show r + 1 ≤ P.nr; omega,
        hlen, hg⟩, _, rfl, fun i hi x => ?_⟩
      by_cases e : i = r
      · subst e
        rw [← sum_ptr, ← sum_sparse P.nc _ (fun k => C.col (C.ptr i + k))
          (fun k => C.val (C.ptr i + k)) x (fun k hk => hC.col i hr _ (by omega) (by omega))]
        refine Finset.sum_congr rfl fun j _ => ?_
        rw [if_pos rfl, sparse, sum_Icc_one]
        congr 1
        refine Finset.sum_congr rfl fun k _ => ?_
        simp
      · simp only [if_neg (show ¬ i + 1 = r + 1 by omega)]
        exact h i (by omega) x) P ⟨P.mat, rfl, by omega⟩
  exact ⟨o, h1, h2⟩

/-- The first part of both constructors. -/
theorem glpInit_spec (h : Heap) (m n : Nat) (hm : 1 ≤ m) (hn : 1 ≤ n) (bl bu : Nat → EReal)
    (c : Nat → ℝ) (xl xu : Nat → EReal) :
    ∃ P, glpInit h m n bl bu c xl xu = some (cxFinish (newProb h), P) ∧ P.nr = m ∧ P.nc = n ∧
      P.dir = .max ∧ (∀ j, j < n → P.obj (j + 1) = c j) ∧
      (∀ i, i < m → ∀ v, Rep v →
        (glpAllows (P.row (i + 1)).1 (P.row (i + 1)).2.1 (P.row (i + 1)).2.2 v ↔
          Within (bl i) (bu i) v)) ∧
      (∀ j, j < n → ∀ v, Rep v →
        (glpAllows (P.col (j + 1)).1 (P.col (j + 1)).2.1 (P.col (j + 1)).2.2 v ↔
          Within (xl j) (xu j) v)) ∧ ∀ j, P.isInt j = false := by
  obtain ⟨r, hr, hr'⟩ := glpCstrBnd_spec bl bu
    { glpSetObjDir glpCreate .max with nr := 0 + m, nc := 0 + n }
  obtain ⟨b, hb, hb'⟩ := glpBnd_spec xl xu
    { glpSetObjDir glpCreate .max with nr := 0 + m, nc := 0 + n, row := r }
  obtain ⟨o, ho, ho'⟩ := glpObj_spec c
    { glpSetObjDir glpCreate .max with nr := 0 + m, nc := 0 + n, row := r, col := b }
  simp only [Nat.zero_add] at hr hr' hb hb' ho ho'
  refine ⟨⟨m, n, .max, o, r, b, glpCreate.mat, glpCreate.isInt⟩, ?_, rfl, rfl, rfl, ho', hr', hb',
    fun _ => rfl⟩
  · unfold glpInit
    simp only [glpAddRows, glpAddCols, if_pos hm, if_pos hn, Option.bind_some]
    have e : (⟨(glpSetObjDir glpCreate .max).nr + m, (glpSetObjDir glpCreate .max).nc + n,
        (glpSetObjDir glpCreate .max).dir, (glpSetObjDir glpCreate .max).obj,
        (glpSetObjDir glpCreate .max).row, (glpSetObjDir glpCreate .max).col,
        (glpSetObjDir glpCreate .max).mat, (glpSetObjDir glpCreate .max).isInt⟩ : Glp) =
        { glpSetObjDir glpCreate .max with nr := m, nc := n } := by
      simp [glpSetObjDir, glpCreate]
    rw [e, hr, Option.bind_some, hb, Option.bind_some, ho]
    rfl

theorem glpGm_inv (h : Heap) (m n : Nat) (hm : 1 ≤ m) (hn : 1 ≤ n) (A : Nat → ℝ) (lda : Nat)
    (bl bu : Nat → EReal) (c : Nat → ℝ) (xl xu : Nat → EReal) :
    ∃ P, glpGm h m n A lda bl bu c xl xu = some (cxFinish (newProb h), P) ∧
      GlpInv (dense m n A lda bl bu c xl xu) P := by
  obtain ⟨P, h1, rfl, rfl, h2, h3, h4, h5, h6⟩ := glpInit_spec h m n hm hn bl bu c xl xu
  obtain ⟨a, ha, ha'⟩ := glpMatGm_spec A lda P
  refine ⟨{ P with mat := a }, by rw [glpGm, h1, Option.bind_some, ha]; rfl, rfl, rfl, h2, h3, h4, h5, ?_, ?_, ?_⟩
  · intro i hi x
    exact Finset.sum_congr rfl fun j hj => by
      show a (i + 1) (j + 1) * x j = _
      rw [ha' i hi j (Finset.mem_range.1 hj)]
  · intro j _; simp [dense, h6]
  · intro j _; simp [dense]

theorem glpCrs_inv (h : Heap) (m n : Nat) (hm : 1 ≤ m) (hn : 1 ≤ n) (C : Crs) (hC : GoodCrs m n C)
    (bl bu : Nat → EReal) (c : Nat → ℝ) (xl xu : Nat → EReal) :
    ∃ P, glpCrs h m n C bl bu c xl xu = some (cxFinish (cxFinish (newProb h)), P) ∧
      GlpInv (crs m n C bl bu c xl xu) P := by
  obtain ⟨P, h1, rfl, rfl, h2, h3, h4, h5, h6⟩ := glpInit_spec h m n hm hn bl bu c xl xu
  obtain ⟨a, ha, ha'⟩ := glpMatCrs_spec C P hC
  refine ⟨{ P with mat := a }, by rw [glpCrs, h1, Option.bind_some, ha]; rfl, rfl, rfl, h2, h3, h4, h5, ha', ?_, ?_⟩
  · intro j _; simp [crs, h6]
  · intro j _; simp [crs]

/-- A change that is neither to a binary type nor of the type of a variable that does not exist. -/
def Plain (n : Nat) : Change → Prop
  | .type j k => j < n ∧ k ≠ .bin
  | _ => True

theorem glpChange_inv {p : Prog} {P : Glp} (hP : GlpInv p P) (ch : Change) (hc : Plain p.n ch) :
    ∃ P', glpChange p.m p.n P ch = some (0, P') ∧ GlpInv (p.change ch) P' := by
  obtain ⟨a1, a2, a3, a4, a5, a6, a7, a8, a9⟩ := hP
  cases ch with
  | dir d => exact ⟨glpSetObjDir P d, rfl, a1, a2, rfl, a4, a5, a6, a7, a8, a9⟩
  | obj c =>
    obtain ⟨o, h1, h2⟩ := glpObj_spec c P
    exact ⟨{ P with obj := o }, by rw [glpChange, ← a2, h1]; rfl, a1, a2, a3, by rw [a2] at h2; exact h2, a5, a6, a7, a8, a9⟩
  | bnd xl xu =>
    obtain ⟨b, h1, h2⟩ := glpBnd_spec xl xu P
    exact ⟨{ P with col := b }, by rw [glpChange, ← a2, h1]; rfl, a1, a2, a3, a4, a5,
      by rw [a2] at h2; exact h2, a7, a8, a9⟩
  | cstr A lda bl bu =>
    obtain ⟨a, h1, h2⟩ := glpMatGm_spec A lda P
    obtain ⟨b, h3, h4⟩ := glpCstrBnd_spec bl bu { P with mat := a }
    refine ⟨{ P with mat := a, row := b }, ?_, a1, a2, a3, a4, ?_, a6, ?_, a8, a9⟩
    · rw [glpChange, glpCstrGm, ← a1, ← a2, h1, Option.bind_some, h3]; rfl
    · intro i hi; exact h4 i (by rw [a1]; exact hi)
    intro i hi x
    exact Finset.sum_congr rfl fun j hj => by
      show a (i + 1) (j + 1) * x j = _
      rw [h2 i (by rw [a1]; exact hi) j (by rw [a2]; exact Finset.mem_range.1 hj)]
  | type j k =>
    obtain ⟨hj, hk⟩ := hc
    have hin : 1 ≤ j + 1 ∧ j + 1 ≤ P.nc := by omega
    have hb : ∀ i, i < p.n → (p.change (.type j k)).kind i ≠ .bin := by
      intro i hi
      simp only [Prog.change]
      by_cases e : i = j
      · subst e; rw [Function.update_self]; exact hk
      · rw [Function.update_of_ne e]; exact a9 i hi
    cases k with
    | bin => exact absurd rfl hk
    | cont =>
      refine ⟨{ P with isInt := Function.update P.isInt (j + 1) false },
        by rw [glpChange, glpSetColKind, if_pos hin]; rfl, a1, a2, a3, a4, a5, a6, a7, ?_, hb⟩
      intro i hi
      simp only [Prog.change]
      by_cases e : i = j
      · subst e; simp
      · rw [Function.update_of_ne e, Function.update_of_ne (by omega)]; exact a8 i hi
    | int =>
      refine ⟨{ P with isInt := Function.update P.isInt (j + 1) true },
        by rw [glpChange, glpSetColKind, if_pos hin]; rfl, a1, a2, a3, a4, a5, a6, a7, ?_, hb⟩
      intro i hi
      simp only [Prog.change]
      by_cases e : i = j
      · subst e; simp
      · rw [Function.update_of_ne e, Function.update_of_ne (by omega)]; exact a8 i hi

theorem change_size (p : Prog) (ch : Change) : (p.change ch).m = p.m ∧ (p.change ch).n = p.n := by
  cases ch <;> exact ⟨rfl, rfl⟩

theorem glp_history (chs : List Change) : ∀ (p : Prog) (P : Glp), GlpInv p P →
    (∀ ch ∈ chs, Plain p.n ch) →
    ∃ P', history (glpChange p.m p.n) chs P p = some (P', chs.foldl Prog.change p) ∧
      GlpInv (chs.foldl Prog.change p) P' := by
  induction chs with
  | nil => intro p P hP _; exact ⟨P, rfl, hP⟩
  | cons ch chs ih =>
    intro p P hP h
    obtain ⟨P', h1, h2⟩ := glpChange_inv hP ch (h ch (by simp))
    obtain ⟨e1, e2⟩ := change_size p ch
    obtain ⟨P'', h3, h4⟩ := ih (p.change ch) P' h2
      (fun c hc => by rw [e2]; exact h c (List.mem_cons_of_mem _ hc))
    refine ⟨P'', ?_, h4⟩
    rw [history, h1]
    simp only [if_pos]
    rw [e1, e2] at h3
    exact h3

theorem foldl_size (chs : List Change) (p : Prog) :
    (chs.foldl Prog.change p).m = p.m ∧ (chs.foldl Prog.change p).n = p.n := by
  induction chs generalizing p with
  | nil => exact ⟨rfl, rfl⟩
  | cons ch chs ih =>
    obtain ⟨h1, h2⟩ := ih (p.change ch)
    obtain ⟨h3, h4⟩ := change_size p ch
    exact ⟨h1.trans h3, h2.trans h4⟩

/-- The held problem and the described one allow the same points. -/
theorem glp_feasible {p : Prog} {P : Glp} (hP : GlpInv p P) (ints : Bool)
    (hi : ints = true ∨ ∀ j, j < P.nc → P.isInt (j + 1) = false) (x y : Nat → ℝ)
    (hxy : ∀ j, j < p.n → x j = y (j + 1)) : P.Feasible ints y ↔ p.Feasible x := by
  have hrow : ∀ i, i < p.m → ∑ j ∈ Finset.Icc 1 P.nc, P.mat (i + 1) j * y j = p.row i x := by
    intro i h
    rw [sum_Icc_one, hP.nc, ← hP.mat i h x]
    exact Finset.sum_congr rfl fun j hj => by rw [hxy j (Finset.mem_range.1 hj)]
  unfold Glp.Feasible Prog.Feasible
  apply and_congr
  · constructor
    · intro h i him
      have := h (i + 1) (by omega) (by rw [hP.nr]; omega)
      rw [hrow i him] at this
      exact ⟨this.1, (hP.row i him _ this.1).1 this.2⟩
    · intro h i h1 h2
      obtain ⟨i, rfl⟩ : ∃ k, i = k + 1 := ⟨i - 1, by omega⟩
      have him : i < p.m := by rw [hP.nr] at h2; omega
      rw [hrow i him]
      exact ⟨(h i him).1, (hP.row i him _ (h i him).1).2 (h i him).2⟩
  · constructor
    · intro h j hj
      obtain ⟨⟨h1, h2⟩, h3⟩ := h (j + 1) (by omega) (by rw [hP.nc]; omega)
      rw [← hxy j hj] at h1 h2 h3
      refine ⟨h1, (hP.col j hj _ h1).1 h2, fun hk => ?_, fun hk => absurd hk (hP.bin j hj)⟩
      have hk' := (hP.kind j hj).2 hk
      rcases hi with hi | hi
      · exact h3 hi hk'
      · rw [hi j (by rw [hP.nc]; omega)] at hk'; simp at hk'
    · intro h j h1 h2
      obtain ⟨j, rfl⟩ : ∃ k, j = k + 1 := ⟨j - 1, by omega⟩
      have hj : j < p.n := by rw [hP.nc] at h2; omega
      obtain ⟨h3, h4, h5, -⟩ := h j hj
      rw [← hxy j hj]
      exact ⟨⟨h3, (hP.col j hj _ h3).2 h4⟩, fun _ hk => h5 ((hP.kind j hj).1 hk)⟩

theorem glp_value {p : Prog} {P : Glp} (hP : GlpInv p P) (x y : Nat → ℝ)
    (hxy : ∀ j, j < p.n → x j = y (j + 1)) : P.value y = P.obj 0 + p.value x := by
  rw [Glp.value, Prog.value, sum_Icc_one, hP.nc]
  congr 1
  exact Finset.sum_congr rfl fun j hj => by
    rw [hP.obj j (Finset.mem_range.1 hj), hxy j (Finset.mem_range.1 hj)]

theorem glp_best {p : Prog} {P : Glp} (hP : GlpInv p P) (ints : Bool)
    (hi : ints = true ∨ ∀ j, j < P.nc → P.isInt (j + 1) = false) (x y : Nat → ℝ)
    (hxy : ∀ j, j < p.n → x j = y (j + 1)) (h : Best P.dir (P.Feasible ints) P.value y) :
    p.Optimal x := by
  refine ⟨(glp_feasible hP ints hi x y hxy).1 h.1, fun z hz => ?_⟩
  have hz' : ∀ j, j < p.n → z j = (fun k => z (k - 1)) (j + 1) := fun j _ => rfl
  have h1 := h.2 _ ((glp_feasible hP ints hi z (fun k => z (k - 1)) hz').2 hz)
  rw [hP.dir, glp_value hP z (fun k => z (k - 1)) hz', glp_value hP x y hxy] at h1
  cases hd : p.dir with
  | max => rw [hd] at h1; simp only at h1 ⊢; linarith
  | min => rw [hd] at h1; simp only at h1 ⊢; linarith

/-- Whether the call that `s_solve` makes ends with the status `GLP_OPT`. -/
def glpStatus (L : GlpLib) (P : Glp) : Bool :=
  if ∃ j, j < P.nc ∧ P.isInt (j + 1) = true then (L.intopt P).opt else (L.simplex P).opt

theorem glpSolve_opt {L : GlpLib} (hL : GlpOk L) {p : Prog} {P : Glp} (hP : GlpInv p P)
    (x0 : Nat → ℝ) (hr : (glpSolve L P p.n x0).1 = 0) (hs : glpStatus L P = true) :
    p.Optimal (glpSolve L P p.n x0).2 := by
  unfold glpStatus at hs
  unfold glpSolve at hr ⊢
  by_cases hi : ∃ j, j < P.nc ∧ P.isInt (j + 1) = true
  · simp only [if_pos hi] at hr hs ⊢
    exact glp_best hP true (Or.inl rfl) _ _ (fun j hj => if_pos hj) (hL.intopt P hr hs)
  · simp only [if_neg hi] at hr hs ⊢
    refine glp_best hP false (Or.inr fun j hj => ?_) _ _ (fun j hj => if_pos hj) (hL.simplex P hr hs)
    by_contra h
    exact hi ⟨j, hj, by simpa using h⟩

/-- **C99**, GLPK: for all programs with a constraint and a variable, in dense or sparse form, and all
sequences of changes that make no variable binary: creation and changes succeed, and if `aa_opt_solve`
returns zero and the solver's status is optimal, the vector is an optimal solution of the program as it
was last described.  Missing: the status, which the code does not look at (`C99_violates_glpk_status`),
programs without constraints (`C99_violates_glpk_empty`) and binary variables
(`C99_violates_glpk_binary`). -/
theorem C99_glpk_partial (L : GlpLib) (hL : GlpOk L) (h : Heap) (m n : Nat) (hm : 1 ≤ m) (hn : 1 ≤ n)
    (bl bu : Nat → EReal) (c : Nat → ℝ) (xl xu : Nat → EReal) (x : Nat → ℝ) (chs : List Change)
    (hch : ∀ ch ∈ chs, Plain n ch) :
    (∀ A lda, ∃ h' P P' p, glpGm h m n A lda bl bu c xl xu = some (h', P) ∧
      history (glpChange m n) chs P (dense m n A lda bl bu c xl xu) = some (P', p) ∧
      ((glpSolve L P' n x).1 = 0 → glpStatus L P' = true → p.Optimal (glpSolve L P' n x).2)) ∧
    ∀ C, GoodCrs m n C → ∃ h' P P' p, glpCrs h m n C bl bu c xl xu = some (h', P) ∧
      history (glpChange m n) chs P (crs m n C bl bu c xl xu) = some (P', p) ∧
      ((glpSolve L P' n x).1 = 0 → glpStatus L P' = true → p.Optimal (glpSolve L P' n x).2) := by
  constructor
  · intro A lda
    obtain ⟨P, h1, h2⟩ := glpGm_inv h m n hm hn A lda bl bu c xl xu
    obtain ⟨P', h3, h4⟩ := glp_history chs _ P h2 hch
    have e := (foldl_size chs (dense m n A lda bl bu c xl xu)).2
    refine ⟨_, P, P', _, h1, h3, fun hr hs => ?_⟩
    have := glpSolve_opt hL h4 x
    rw [e] at this
    exact this hr hs
  · intro C hC
    obtain ⟨P, h1, h2⟩ := glpCrs_inv h m n hm hn C hC bl bu c xl xu
    obtain ⟨P', h3, h4⟩ := glp_history chs _ P h2 hch
    have e := (foldl_size chs (crs m n C bl bu c xl xu)).2
    refine ⟨_, P, P', _, h1, h3, fun hr hs => ?_⟩
    have := glpSolve_opt hL h4 x
    rw [e] at this
    exact this hr hs

/-! ## CLP -/

/-- What CLP holds for a pair of bounds allows what they allow, or nothing at all. -/
def Bounded (b : EReal × EReal) (l u : EReal) : Prop :=
  (∀ v, Rep v → (clpAllows b v ↔ Within l u v)) ∨ ∀ v, ¬ clpAllows b v

/-- The model holds the program. -/
structure ClpInv (p : Prog) (P : Clp) : Prop where
  nr : P.nr = p.m
  nc : P.nc = p.n
  dir : P.dir = p.dir
  obj : ∀ j, j < p.n → P.obj j = p.c j
  row : ∀ i, i < p.m → Bounded (P.row i) (p.bl i) (p.bu i)
  col : ∀ j, j < p.n → Bounded (P.col j) (p.xl j) (p.xu j)
  mat : ∀ i, i < p.m → ∀ x, rowVal p.n (P.mat i) x = p.row i x
  kind : ∀ j, p.kind j = .cont

theorem clpObj_spec (c : Nat → ℝ) (P : Clp) : ∃ o, clpObj P.nc c P = some { P with obj := o } ∧
    ∀ j, j < P.nc → o j = c j := by
  obtain ⟨s, h1, o, rfl, h2⟩ := loop_inv (fun j P => clpSetObjCoef P j (c j))
    (fun k (s : Clp) => ∃ o, s = { P with obj := o } ∧ ∀ j, j < k → o j = c j) P.nc (by
      rintro i s hi ⟨o, rfl, h⟩
      refine ⟨_, if_pos hi, _, rfl, fun j hj => ?_⟩
      by_cases e : j = i
      · subst e; rw [Function.update_self]
      · rw [Function.update_of_ne (by omega)]; exact h j (by omega)) P ⟨P.obj, rfl, by omega⟩
  exact ⟨o, h1, h2⟩

theorem clpBnd_spec (xl xu : Nat → EReal) (P : Clp) :
    ∃ b, clpBnd P.nc xl xu P = some { P with col := b } ∧ ∀ j, j < P.nc → ∀ v, Rep v →
      (clpAllows (b j) v ↔ Within (xl j) (xu j) v) := by
  obtain ⟨s, h1, o, rfl, h2⟩ := loop_inv (fun j P => clpSetColBounds P j (clpBounds (xl j) (xu j)))
    (fun k (s : Clp) => ∃ b, s = { P with col := b } ∧ ∀ j, j < k → ∀ v, Rep v →
      (clpAllows (b j) v ↔ Within (xl j) (xu j) v)) P.nc (by
      rintro i s hi ⟨o, rfl, h⟩
      refine ⟨_, if_pos hi, _, rfl, fun j hj => ?_⟩
      by_cases e : j = i
      · subst e; rw [Function.update_self]; exact C59_clp _ _
      · rw [Function.update_of_ne (by omega)]; exact h j (by omega)) P ⟨P.col, rfl, by omega⟩
  exact ⟨o, h1, h2⟩

theorem clpCstrBnd_spec (bl bu : Nat → EReal) (P : Clp) :
    ∃ b, clpCstrBnd P.nr bl bu P = some { P with row := b } ∧ ∀ j, j < P.nr → ∀ v, Rep v →
      (clpAllows (b j) v ↔ Within (bl j) (bu j) v) := by
  obtain ⟨s, h1, o, rfl, h2⟩ := loop_inv (fun j P => clpSetRowBounds P j (clpBounds (bl j) (bu j)))
    (fun k (s : Clp) => ∃ b, s = { P with row := b } ∧ ∀ j, j < k → ∀ v, Rep v →
      (clpAllows (b j) v ↔ Within (bl j) (bu j) v)) P.nr (by
      rintro i s hi ⟨o, rfl, h⟩
      refine ⟨_, if_pos hi, _, rfl, fun j hj => ?_⟩
      by_cases e : j = i
      · subst e; rw [Function.update_self]; exact C59_clp _ _
      · rw [Function.update_of_ne (by omega)]; exact h j (by omega)) P ⟨P.row, rfl, by omega⟩
  exact ⟨o, h1, h2⟩

theorem clpMatGm_spec (A : Nat → ℝ) (lda : Nat) (P : Clp) :
    ∃ a, clpMatGm P.nr P.nc A lda P = some { P with mat := a } ∧
      ∀ i, i < P.nr → ∀ j, j < P.nc → a i j = A (lda * j + i) := by
  obtain ⟨s, h1, o, rfl, h2⟩ := loop_inv
    (fun j P' => loop (fun i P => clpModify P i j (matref A lda i j)) P.nr 0 P')
    (fun k (s : Clp) => ∃ a, s = { P with mat := a } ∧
      ∀ i, i < P.nr → ∀ j, j < k → a i j = A (lda * j + i)) P.nc (by
      rintro c s hc ⟨o, rfl, h⟩
      obtain ⟨s, h1, o', rfl, h2, h3⟩ := loop_inv
        (fun i P => clpModify P i c (matref A lda i c))
        (fun k (s : Clp) => ∃ a, s = { P with mat := a } ∧ (∀ i, i < k → a i c = A (lda * c + i)) ∧
          ∀ i j, j ≠ c → a i j = o i j) P.nr (by
          rintro r s hr ⟨a, rfl, h1, h2⟩
          refine ⟨_, if_pos ⟨hr, hc⟩, _, rfl, fun i hi => ?_, fun i j hj => ?_⟩
          · by_cases e : i = r
            · subst e; rw [if_pos ⟨rfl, rfl⟩, matref, mul_comm]
            · rw [if_neg (fun h => e h.1)]; exact h1 i (by omega)
          · rw [if_neg (fun h => hj h.2)]; exact h2 i j hj)
        { P with mat := o } ⟨o, rfl, by omega, fun _ _ _ => rfl⟩
      refine ⟨_, h1, _, rfl, fun i hi j hj => ?_⟩
      by_cases e : j = c
      · subst e; exact h2 i hi
      · rw [h3 i j e]; exact h i hi j (by omega)) P ⟨P.mat, rfl, by omega⟩
  exact ⟨o, h1, h2⟩

theorem clpGm_inv (h : Heap) (m n : Nat) (A : Nat → ℝ) (lda : Nat)
    (bl bu : Nat → EReal) (c : Nat → ℝ) (xl xu : Nat → EReal) :
    ∃ P, clpGm h m n A lda bl bu c xl xu = some (cxFinish (newProb h), P) ∧
      ClpInv (dense m n A lda bl bu c xl xu) P := by
  obtain ⟨s, h1, h2, h3, h4⟩ := loop_inv
    (fun j P => clpAddColumn P m (fun i => i) (fun i => matref A lda i j) (xl j) (xu j) (c j))
    (fun k (s : Clp) => s.nr = m ∧ s.nc = k ∧
      ∀ i, i < m → ∀ j, j < k → s.mat i j = A (lda * j + i)) n (by
      rintro j s hj ⟨h1, h2, h3⟩
      refine ⟨_, if_pos ⟨fun k hk => by rw [h1]; exact hk, fun _ _ _ _ e => e⟩, h1, by simp [h2], ?_⟩
      intro i hi j' hj'
      by_cases e : j' = j
      · subst e
        simp only [h2, if_true]
        rw [Finset.sum_eq_single i]
        · simp [matref, mul_comm]
        · intro k _ hk; rw [if_neg hk]
        · intro hn; exact absurd (Finset.mem_range.2 hi) hn
      · simp only [h2, if_neg e]; exact h3 i hi j' (by omega))
    (clpCreate m 0) ⟨rfl, rfl, by omega⟩
  subst h2 h3
  obtain ⟨b, hb, hb'⟩ := clpBnd_spec xl xu s
  obtain ⟨o, ho, ho'⟩ := clpObj_spec c { s with col := b }
  obtain ⟨r, hr, hr'⟩ := clpCstrBnd_spec bl bu { s with col := b, obj := o }
  refine ⟨{ s with col := b, obj := o, row := r, dir := .max }, ?_, rfl, rfl, rfl, ho',
    fun i hi => Or.inl (hr' i hi), fun j hj => Or.inl (hb' j hj), ?_, fun _ => rfl⟩
  · unfold clpGm
    simp only
    rw [h1, Option.bind_some, hb, Option.bind_some, ho, Option.bind_some, hr]
    rfl
  · intro i hi x
    exact Finset.sum_congr rfl fun j hj => by
      show s.mat i j * x j = _
      rw [h4 i hi j (Finset.mem_range.1 hj)]

/-- Bounds that CLP gets as they are. -/
theorem clp_raw (l u : EReal) : Bounded (l, u) l u := by
  by_cases hl : l = ⊤
  · refine Or.inr fun v h => ?_
    have := h.1 (by rw [hl]; exact EReal.coe_lt_top _)
    rw [hl] at this
    exact EReal.coe_ne_top _ (top_le_iff.1 this)
  by_cases hu : u = ⊥
  · refine Or.inr fun v h => ?_
    have := h.2 (by rw [hu]; exact EReal.bot_lt_coe _)
    rw [hu] at this
    exact EReal.coe_ne_bot _ (le_bot_iff.1 this)
  refine Or.inl fun v hv => ?_
  unfold clpAllows Within
  apply and_congr
  · constructor
    · intro h
      by_cases h1 : ((-dblMax : ℝ) : EReal) < l
      · exact Or.inr (h h1)
      · exact Or.inr ((not_lt.1 h1).trans (by exact_mod_cast hv.1))
    · rintro ((h | h) | h) h1
      · rw [h] at h1; simp at h1
      · exact absurd h hl
      · exact h
  · constructor
    · intro h
      by_cases h1 : u < ((dblMax : ℝ) : EReal)
      · exact Or.inr (h h1)
      · exact Or.inr (le_trans (by exact_mod_cast hv.2) (not_lt.1 h1))
    · rintro ((h | h) | h) h1
      · exact absurd h hu
      · rw [h] at h1; simp at h1
      · exact h

theorem clpCrs_inv (h : Heap) (m n : Nat) (C : Crs) (hC : GoodCrs m n C)
    (bl bu : Nat → EReal) (c : Nat → ℝ) (xl xu : Nat → EReal) :
    ∃ P, clpCrs h m n C bl bu c xl xu = some (cxFinish (newProb h), P) ∧
      ClpInv (crs m n C bl bu c xl xu) P := by
  obtain ⟨s, h1, h2, h3, h4, h5⟩ := loop_inv (fun i P =>
    if C.ptr (i + 1) < C.ptr i then none
    else clpAddRow P (C.ptr (i + 1) - C.ptr i) (fun k => C.col (C.ptr i + k))
      (fun k => C.val (C.ptr i + k)) (bl i) (bu i))
    (fun k (s : Clp) => s.nr = k ∧ s.nc = n ∧ (∀ i, i < k → s.row i = (bl i, bu i)) ∧
      ∀ i, i < k → ∀ x : Nat → ℝ, rowVal n (s.mat i) x =
        ∑ k ∈ Finset.Ico (C.ptr i) (C.ptr (i + 1)), C.val k * x (C.col k)) m (by
      rintro r s hr ⟨h1, h2, h3, h4⟩
      have hm := hC.mono r hr
      have hg : (∀ k, k < C.ptr (r + 1) - C.ptr r → (fun k => C.col (C.ptr r + k)) k < s.nc) ∧
          ∀ k k', k < C.ptr (r + 1) - C.ptr r → k' < C.ptr (r + 1) - C.ptr r →
            (fun k => C.col (C.ptr r + k)) k = (fun k => C.col (C.ptr r + k)) k' → k = k' :=
        ⟨fun k hk => by rw [h2]; exact hC.col r hr _ (by omega) (by omega),
          fun k k' hk hk' e => by
            have := hC.ne r hr _ _ (by omega) (by omega) (by omega) (by omega) e
            omega⟩
      refine ⟨_, (if_neg (by omega)).trans (if_pos hg), ?_⟩
      refine ⟨by simp [h1], h2, fun i hi => ?_, fun i hi x => ?_⟩
      · by_cases e : i = r
        · subst e; simp [h1]
        · simp only [h1]; rw [Function.update_of_ne e]; exact h3 i (by omega)
      · by_cases e : i = r
        · subst e
          rw [← sum_ptr, ← sum_sparse n _ (fun k => C.col (C.ptr i + k))
            (fun k => C.val (C.ptr i + k)) x (fun k hk => hC.col i hr _ (by omega) (by omega))]
          simp only [h1, if_true, rowVal]
        · simp only [h1, if_neg e]; exact h4 i (by omega) x)
    (clpCreate 0 n) ⟨rfl, rfl, by omega, by omega⟩
  refine ⟨clpSetDir (clpChg s xl xu c) (-1), by unfold clpCrs; rw [h1]; rfl, h2, h3, rfl, ?_, ?_, ?_, h5,
    fun _ => rfl⟩
  · intro j (hj : j < n)
    show (if j < s.nc then c j else s.obj j) = c j
    rw [h3, if_pos hj]
  · intro i hi
    show Bounded (s.row i) _ _
    rw [h4 i hi]
    exact clp_raw _ _
  · intro j (hj : j < n)
    show Bounded (if j < s.nc then (xl j, xu j) else s.col j) _ _
    rw [h3, if_pos hj]
    exact clp_raw _ _

theorem clpChange_inv {p : Prog} {P : Clp} (hP : ClpInv p P) (ch : Change) :
    ∃ r P', clpChange p.m p.n P ch = some (r, P') ∧ ClpInv (if r = 0 then p.change ch else p) P' := by
  obtain ⟨a1, a2, a3, a4, a5, a6, a7, a8⟩ := id hP
  cases ch with
  | dir d =>
    cases d with
    | max => exact ⟨0, _, rfl, a1, a2, rfl, a4, a5, a6, a7, a8⟩
    | min => exact ⟨0, _, rfl, a1, a2, rfl, a4, a5, a6, a7, a8⟩
  | obj c =>
    obtain ⟨o, h1, h2⟩ := clpObj_spec c P
    exact ⟨0, { P with obj := o }, by rw [clpChange, ← a2, h1]; rfl, a1, a2, a3,
      by rw [a2] at h2; exact h2, a5, a6, a7, a8⟩
  | bnd xl xu =>
    obtain ⟨b, h1, h2⟩ := clpBnd_spec xl xu P
    exact ⟨0, { P with col := b }, by rw [clpChange, ← a2, h1]; rfl, a1, a2, a3, a4, a5,
      fun j hj => Or.inl (h2 j (by rw [a2]; exact hj)), a7, a8⟩
  | cstr A lda bl bu =>
    obtain ⟨a, h1, h2⟩ := clpMatGm_spec A lda P
    obtain ⟨b, h3, h4⟩ := clpCstrBnd_spec bl bu { P with mat := a }
    refine ⟨0, { P with mat := a, row := b }, ?_, a1, a2, a3, a4, ?_, a6, ?_, a8⟩
    · rw [clpChange, ← a1, ← a2, h1, Option.bind_some, h3]; rfl
    · intro i hi; exact Or.inl (h4 i (by rw [a1]; exact hi))
    · intro i hi x
      exact Finset.sum_congr rfl fun j hj => by
        show a i j * x j = _
        rw [h2 i (by rw [a1]; exact hi) j (by rw [a2]; exact Finset.mem_range.1 hj)]
  | type j k => exact ⟨-1, P, rfl, by simpa using hP⟩

theorem clp_history (chs : List Change) : ∀ (p : Prog) (P : Clp), ClpInv p P →
    ∃ P' p', history (clpChange p.m p.n) chs P p = some (P', p') ∧ ClpInv p' P' ∧ p'.n = p.n := by
  induction chs with
  | nil => intro p P hP; exact ⟨P, p, rfl, hP, rfl⟩
  | cons ch chs ih =>
    intro p P hP
    obtain ⟨r, P', h1, h2⟩ := clpChange_inv hP ch
    have e : (if r = 0 then p.change ch else p).m = p.m ∧ (if r = 0 then p.change ch else p).n = p.n := by
      split_ifs
      · exact change_size p ch
      · exact ⟨rfl, rfl⟩
    obtain ⟨P'', p'', h3, h4, h5⟩ := ih _ P' h2
    refine ⟨P'', p'', ?_, h4, h5.trans e.2⟩
    rw [history, h1]
    simp only
    rw [e.1, e.2] at h3
    exact h3

theorem clp_feasible {p : Prog} {P : Clp} (hP : ClpInv p P)
    (hr : ∀ i, i < p.m → ∀ v, Rep v → (clpAllows (P.row i) v ↔ Within (p.bl i) (p.bu i) v))
    (hc : ∀ j, j < p.n → ∀ v, Rep v → (clpAllows (P.col j) v ↔ Within (p.xl j) (p.xu j) v))
    (x y : Nat → ℝ) (hxy : ∀ j, j < p.n → x j = y j) : P.Feasible y ↔ p.Feasible x := by
  have hrow : ∀ i, i < p.m → rowVal P.nc (P.mat i) y = p.row i x := by
    intro i h
    rw [← hP.mat i h x, hP.nc]
    exact Finset.sum_congr rfl fun j hj => by rw [hxy j (Finset.mem_range.1 hj)]
  unfold Clp.Feasible Prog.Feasible
  rw [hP.nr]
  apply and_congr
  · refine forall_congr' fun i => forall_congr' fun hi => ?_
    rw [hrow i hi]
    exact and_congr_right fun hv => hr i hi _ hv
  · rw [hP.nc]
    refine forall_congr' fun j => forall_congr' fun hj => ?_
    rw [hxy j hj]
    refine and_congr_right fun hv => ?_
    rw [hc j hj _ hv]
    simp [hP.kind j]

theorem clp_best {p : Prog} {P : Clp} (hP : ClpInv p P) (x y : Nat → ℝ)
    (hxy : ∀ j, j < p.n → x j = y j)
    (h : Best P.dir P.Feasible (fun y => rowVal P.nc P.obj y) y) : p.Optimal x := by
  have hv : ∀ x y : Nat → ℝ, (∀ j, j < p.n → x j = y j) → rowVal P.nc P.obj y = p.value x := by
    intro x y hxy
    rw [rowVal, Prog.value, hP.nc]
    exact Finset.sum_congr rfl fun j hj => by
      rw [hP.obj j (Finset.mem_range.1 hj), hxy j (Finset.mem_range.1 hj)]
  have hr : ∀ i, i < p.m → ∀ v, Rep v → (clpAllows (P.row i) v ↔ Within (p.bl i) (p.bu i) v) :=
    fun i hi => (hP.row i hi).resolve_right fun hn => hn _ (h.1.1 i (by rw [hP.nr]; exact hi)).2
  have hc : ∀ j, j < p.n → ∀ v, Rep v → (clpAllows (P.col j) v ↔ Within (p.xl j) (p.xu j) v) :=
    fun j hj => (hP.col j hj).resolve_right fun hn => hn _ (h.1.2 j (by rw [hP.nc]; exact hj)).2
  refine ⟨(clp_feasible hP hr hc x y hxy).1 h.1, fun z hz => ?_⟩
  have h1 := h.2 z ((clp_feasible hP hr hc z z (fun _ _ => rfl)).2 hz)
  simp only [hP.dir, hv z z (fun _ _ => rfl), hv x y hxy] at h1
  exact h1

theorem clpSolve_opt {L : ClpLib} (hL : ClpOk L) {p : Prog} {P : Clp} (hP : ClpInv p P)
    (x0 : Nat → ℝ) (hr : (clpSolve L P p.n x0).1 = 0) : p.Optimal (clpSolve L P p.n x0).2 := by
  unfold clpSolve at hr ⊢
  cases hs : L P with
  | none => rw [hs] at hr; simp at hr
  | some r =>
    rw [hs] at hr
    exact clp_best hP _ _ (fun j hj => if_pos hj) (hL P r hs hr)

/-- **C99**, CLP: for all programs in dense or sparse form and all sequences of changes (types are
refused): creation and changes do not fail, and if `aa_opt_solve` returns zero, the vector is an
optimal solution of the program as it was last described. -/
theorem C99_clp (L : ClpLib) (hL : ClpOk L) (h : Heap) (m n : Nat)
    (bl bu : Nat → EReal) (c : Nat → ℝ) (xl xu : Nat → EReal) (x : Nat → ℝ) (chs : List Change) :
    (∀ A lda, ∃ h' P P' p, clpGm h m n A lda bl bu c xl xu = some (h', P) ∧
      history (clpChange m n) chs P (dense m n A lda bl bu c xl xu) = some (P', p) ∧
      ((clpSolve L P' n x).1 = 0 → p.Optimal (clpSolve L P' n x).2)) ∧
    ∀ C, GoodCrs m n C → ∃ h' P P' p, clpCrs h m n C bl bu c xl xu = some (h', P) ∧
      history (clpChange m n) chs P (crs m n C bl bu c xl xu) = some (P', p) ∧
      ((clpSolve L P' n x).1 = 0 → p.Optimal (clpSolve L P' n x).2) := by
  constructor
  · intro A lda
    obtain ⟨P, h1, h2⟩ := clpGm_inv h m n A lda bl bu c xl xu
    obtain ⟨P', p, h3, h4, e⟩ := clp_history chs _ P h2
    refine ⟨_, P, P', _, h1, h3, fun hr => ?_⟩
    have := clpSolve_opt hL h4 x
    rw [e] at this
    exact this hr
  · intro C hC
    obtain ⟨P, h1, h2⟩ := clpCrs_inv h m n C hC bl bu c xl xu
    obtain ⟨P', p, h3, h4, e⟩ := clp_history chs _ P h2
    refine ⟨_, P, P', _, h1, h3, fun hr => ?_⟩
    have := clpSolve_opt hL h4 x
    rw [e] at this
    exact this hr

end Verif.Lp
