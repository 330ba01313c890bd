import Verif.Model.MatExp
import Verif.Prop.Mat
import Mathlib.Tactic.Ring

/-!
# C101: assigning a vector or matrix expression stores its value
-/

namespace Verif.Mat

variable {K : Type} [CommRing K]

/-! ## What an expression means -/

/-- The shape of a matrix expression; `none` if its parts do not fit. -/
def MSrc.shape : MSrc K → Option (Nat × Nat)
  | .mat A => some (A.rows, A.cols)
  | .t A => some (A.cols, A.rows)
  | .smul _ e => e.shape
  | .mul e e' =>
    match e.shape, e'.shape with
    | some (r, k), some (k', c) => if k = k' then some (r, c) else none
    | _, _ => none
  | .add e e' => if e.shape = e'.shape then e.shape else none

/-- The elements of its value. -/
def MSrc.val (m : Mem K) : MSrc K → Nat → Nat → K
  | .mat A => fun i j => m (A.ref i j)
  | .t A => fun i j => m (A.ref j i)
  | .smul a e => fun i j => a * e.val m i j
  | .mul e e' => fun i j => ∑ k ∈ Finset.range (e.shape.elim 0 (·.2)), e.val m i k * e'.val m k j
  | .add e e' => fun i j => e.val m i j + e'.val m i j

/-- The length of a vector expression. -/
def VSrc.size : VSrc K → Option Nat
  | .vec x => some x.len
  | .smul _ e => e.size
  | .add e e' => if e.size = e'.size then e.size else none
  | .mul M e =>
    match M.shape, e.size with
    | some (r, k), some k' => if k = k' then some r else none
    | _, _ => none

/-- The elements of its value. -/
def VSrc.val (m : Mem K) : VSrc K → Nat → K
  | .vec x => fun i => m (x.ref i)
  | .smul a e => fun i => a * e.val m i
  | .add e e' => fun i => e.val m i + e'.val m i
  | .mul M e => fun i => ∑ k ∈ Finset.range (M.shape.elim 0 (·.2)), M.val m i k * e.val m k

/-- An address of an element of an operand. -/
def MSrc.Reads (a : Nat) : MSrc K → Prop
  | .mat A | .t A => ∃ i < A.rows, ∃ j < A.cols, a = A.ref i j
  | .smul _ e => e.Reads a
  | .mul e e' | .add e e' => e.Reads a ∨ e'.Reads a

def VSrc.Reads (a : Nat) : VSrc K → Prop
  | .vec x => ∃ k < x.len, a = x.ref k
  | .smul _ e => e.Reads a
  | .add e e' => e.Reads a ∨ e'.Reads a
  | .mul M e => M.Reads a ∨ e.Reads a

/-- In products, only square matrices are transposed. -/
def MSrc.Square : MSrc K → Prop
  | .mat _ => True
  | .t A => A.rows = A.cols
  | .smul _ e => e.Square
  | .mul e e' => e.Square ∧ e'.Square
  | .add e e' => e.Square ∧ e'.Square

/-! ## Trees -/

/-- The value of a tree. -/
def VExp.den (m : Mem K) : VExp K → Nat → K
  | .leaf x => fun i => m (x.ref i)
  | .scal a e => fun i => a * e.den m i
  | .axpy a x e => fun i => a * m (x.ref i) + e.den m i
  | .mv1 t a A x => fun i => a * ∑ k ∈ Finset.range x.len, A.op t m i k * m (x.ref k)
  | .mv2 t a A x b e => fun i => a * ∑ k ∈ Finset.range x.len, A.op t m i k * m (x.ref k) + b * e.den m i

/-- The parts of a tree have the sizes for a result of length `n`. -/
def VExp.Fits (n : Nat) : VExp K → Prop
  | .leaf x => x.len = n
  | .scal _ e => e.Fits n
  | .axpy _ x e => x.len = n ∧ e.Fits n
  | .mv1 t _ A x => A.opCols t = x.len ∧ A.opRows t = n
  | .mv2 t _ A x _ e => (A.opCols t = x.len ∧ A.opRows t = n) ∧ e.Fits n

/-- Storing in `y` does not disturb the operands: the vector that is copied to `y` at first may be `y`,
the others have no element in common with it. -/
def VExp.Free (y : DVec) : VExp K → Prop
  | .leaf x => VecApart x y
  | .scal _ e => e.Free y
  | .axpy _ x e => (∀ k < x.len, ∀ l < y.len, x.ref k ≠ y.ref l) ∧ e.Free y
  | .mv1 _ _ A x => (∀ i < A.rows, ∀ j < A.cols, ∀ k < y.len, A.ref i j ≠ y.ref k) ∧
      ∀ k < x.len, ∀ l < y.len, x.ref k ≠ y.ref l
  | .mv2 _ _ A x _ e => ((∀ i < A.rows, ∀ j < A.cols, ∀ k < y.len, A.ref i j ≠ y.ref k) ∧
      ∀ k < x.len, ∀ l < y.len, x.ref k ≠ y.ref l) ∧ e.Free y

omit [CommRing K] in
theorem VecWrite.out {y : DVec} {m m' : Mem K} {f : Nat → K} (h : VecWrite y m m' f) {x : DVec}
    (hx : ∀ k < x.len, ∀ l < y.len, x.ref k ≠ y.ref l) {k : Nat} (hk : k < x.len) :
    m' (x.ref k) = m (x.ref k) := h.2 _ fun l hl => hx k hk l hl

omit [CommRing K] in
theorem op_out {y : DVec} {m m' : Mem K} {f : Nat → K} (h : VecWrite y m m' f) {A : DMat}
    (hA : ∀ i < A.rows, ∀ j < A.cols, ∀ k < y.len, A.ref i j ≠ y.ref k) (t : Bool) {i k : Nat}
    (hi : i < A.opRows t) (hk : k < A.opCols t) : A.op t m' i k = A.op t m i k := by
  cases t
  · exact h.2 _ fun l hl => hA i hi k hk l hl
  · exact h.2 _ fun l hl => hA k hk i hi l hl

/-- Evaluating a tree stores its value. -/
theorem VExp.eval_spec (y : DVec) (hy : 0 < y.inc) (m : Mem K) (e : VExp K) (h1 : e.Fits y.len)
    (h2 : e.Free y) : ∃ m', e.eval y m = some m' ∧ VecWrite y m m' (e.den m) := by
  have self : VecApart y y := fun k _ l _ e => vref_inj hy e
  have trans : ∀ {m1 m2 : Mem K} {f g g' : Nat → K}, VecWrite y m m1 f → VecWrite y m1 m2 g →
      (∀ k < y.len, g k = g' k) → VecWrite y m m2 g' := by
    intro m1 m2 f g g' a b c
    exact ⟨fun k hk => (b.1 k hk).trans (c k hk), fun p hp => (b.2 p hp).trans (a.2 p hp)⟩
  induction e with
  | leaf x =>
    obtain ⟨m1, -, e1, -, w, -⟩ := (C33_vector2 x y hy h2 1 m).2 h1
    exact ⟨m1, e1, w⟩
  | scal a e ih =>
    obtain ⟨m1, e1, w1⟩ := ih h1 h2
    refine ⟨vscal a y m1, by rw [VExp.eval, e1]; rfl, trans w1 (C33_vector y hy a m1).2.2.1 ?_⟩
    intro k hk
    rw [w1.1 k hk]; rfl
  | axpy a x e ih =>
    obtain ⟨m1, e1, w1⟩ := ih h1.2 h2.2
    obtain ⟨-, m2, -, e2, -, w2⟩ :=
      (C33_vector2 x y hy (fun k hk l hl e => absurd e (h2.1 k hk l hl)) a m1).2 h1.1
    refine ⟨m2, by rw [VExp.eval, e1, Option.bind_some, e2], trans w1 w2 ?_⟩
    intro k hk
    rw [w1.1 k hk, w1.out h2.1 (h1.1 ▸ hk)]; rfl
  | mv1 t a A x =>
    obtain ⟨m2, e2⟩ := Option.isSome_iff_exists.1 ((C35_gemv t a 0 A x y m).1.2 h1)
    refine ⟨m2, e2, ?_⟩
    have w := (C35_gemv t a 0 A x y m).2 hy h2.1 h2.2 m2 e2
    refine ⟨fun k hk => (w.1 k hk).trans ?_, w.2⟩
    simp [VExp.den]
  | mv2 t a A x b e ih =>
    obtain ⟨m1, e1, w1⟩ := ih h1.2 h2.2
    obtain ⟨m2, e2⟩ := Option.isSome_iff_exists.1 ((C35_gemv t a b A x y m1).1.2 h1.1)
    have w := (C35_gemv t a b A x y m1).2 hy h2.1.1 h2.1.2 m2 e2
    refine ⟨m2, by rw [VExp.eval, e1, Option.bind_some, e2], trans w1 w ?_⟩
    intro i hi
    rw [w1.1 i hi]
    simp only [VExp.den]
    congr 2
    refine Finset.sum_congr rfl fun k hk => ?_
    have hk := Finset.mem_range.1 hk
    rw [op_out w1 h2.1.1 t (h1.1.2 ▸ hi) (h1.1.1 ▸ hk), w1.out h2.1.2 hk]

/-- The value of a matrix tree. -/
def MExp.den (m : Mem K) : MExp K → Nat → Nat → K
  | .leaf A => fun i j => m (A.ref i j)
  | .scal a e => fun i j => a * e.den m i j
  | .mm1 ta tb a A B => fun i j => a * ∑ k ∈ Finset.range (A.opCols ta), A.op ta m i k * B.op tb m k j
  | .mm2 ta tb a A B b e => fun i j =>
    a * ∑ k ∈ Finset.range (A.opCols ta), A.op ta m i k * B.op tb m k j + b * e.den m i j
  | .trans A => fun i j => m (A.ref j i)

/-- The parts have the shapes for a result of shape `r × c`. -/
def MExp.Fits (r c : Nat) : MExp K → Prop
  | .leaf A => A.rows = r ∧ A.cols = c
  | .scal _ e => e.Fits r c
  | .mm1 ta tb _ A B => A.opRows ta = r ∧ A.opCols ta = B.opRows tb ∧ B.opCols tb = c
  | .mm2 ta tb _ A B _ e => (A.opRows ta = r ∧ A.opCols ta = B.opRows tb ∧ B.opCols tb = c) ∧ e.Fits r c
  | .trans A => A.cols = r ∧ A.rows = c

/-- Only square matrices are transposed in products. -/
def MExp.Square : MExp K → Prop
  | .leaf _ | .trans _ => True
  | .scal _ e => e.Square
  | .mm1 ta tb _ A B => (ta = true → A.rows = A.cols) ∧ (tb = true → B.rows = B.cols)
  | .mm2 ta tb _ A B _ e => ((ta = true → A.rows = A.cols) ∧ (tb = true → B.rows = B.cols)) ∧ e.Square

/-- The copied matrix may be the target, the others are disjoint from it; columns do not overlap. -/
def MExp.Free (Y : DMat) : MExp K → Prop
  | .leaf A => A.rows ≤ A.ld ∧ MatApart A Y
  | .scal _ e => e.Free Y
  | .mm1 _ _ _ A B => MatDisjoint A Y ∧ MatDisjoint B Y
  | .mm2 _ _ _ A B _ e => (MatDisjoint A Y ∧ MatDisjoint B Y) ∧ e.Free Y
  | .trans A => MatDisjoint A Y

omit [CommRing K] in
theorem mop_out {Y : DMat} {m m' : Mem K} {f : Nat → Nat → K} (h : MatWrite Y m m' f) {A : DMat}
    (hA : MatDisjoint A Y) (t : Bool) {i k : Nat} (hi : i < A.opRows t) (hk : k < A.opCols t) :
    A.op t m' i k = A.op t m i k := by
  cases t
  · exact h.2 _ fun i' hi' j' hj' => hA i hi k hk i' hi' j' hj'
  · exact h.2 _ fun i' hi' j' hj' => hA k hk i hi i' hi' j' hj'

theorem opCols_sq {A : DMat} {t : Bool} (h : t = true → A.rows = A.cols) : A.opCols t = A.cols := by
  cases t
  · rfl
  · exact h rfl

theorem MExp.eval_spec (Y : DMat) (hY : Y.rows ≤ Y.ld) (m : Mem K) (e : MExp K)
    (h1 : e.Fits Y.rows Y.cols) (h2 : e.Free Y) (h3 : e.Square) :
    ∃ m', e.eval Y m = some m' ∧ MatWrite Y m m' (e.den m) := by
  have trans : ∀ {m1 m2 : Mem K} {f g g' : Nat → Nat → K}, MatWrite Y m m1 f → MatWrite Y m1 m2 g →
      (∀ i < Y.rows, ∀ j < Y.cols, g i j = g' i j) → MatWrite Y m m2 g' := by
    intro m1 m2 f g g' a b c
    exact ⟨fun i hi j hj => (b.1 i hi j hj).trans (c i hi j hj), fun p hp => (b.2 p hp).trans (a.2 p hp)⟩
  induction e with
  | leaf A =>
    obtain ⟨m1, -, e1, -, w, -⟩ := (C33_matrix2 A Y h2.1 hY h2.2 1 m).2 h1.1 h1.2
    exact ⟨m1, e1, w⟩
  | scal a e ih =>
    obtain ⟨m1, e1, w1⟩ := ih h1 h2 h3
    refine ⟨mscal Y a m1, by rw [MExp.eval, e1]; rfl, trans w1 (C33_matrix Y hY a 0 m1).2.2 ?_⟩
    intro i hi j hj
    rw [w1.1 i hi j hj]; rfl
  | mm1 ta tb a A B =>
    have g := C35_gemm_partial ta tb a 0 A B Y m h3
    obtain ⟨m2, e2⟩ := Option.isSome_iff_exists.1 (g.1.2 h1)
    refine ⟨m2, e2, ?_⟩
    have w := g.2 hY h2.1 h2.2 m2 e2
    refine ⟨fun i hi j hj => (w.1 i hi j hj).trans ?_, w.2⟩
    simp [MExp.den, opCols_sq h3.1]
  | mm2 ta tb a A B b e ih =>
    obtain ⟨m1, e1, w1⟩ := ih h1.2 h2.2 h3.2
    have g := C35_gemm_partial ta tb a b A B Y m1 h3.1
    obtain ⟨m2, e2⟩ := Option.isSome_iff_exists.1 (g.1.2 h1.1)
    have w := g.2 hY h2.1.1 h2.1.2 m2 e2
    refine ⟨m2, by rw [MExp.eval, e1, Option.bind_some, e2], trans w1 w ?_⟩
    intro i hi j hj
    rw [w1.1 i hi j hj]
    simp only [MExp.den, opCols_sq h3.1.1]
    congr 2
    refine Finset.sum_congr rfl fun k hk => ?_
    have hk := Finset.mem_range.1 hk
    have hk' : k < A.opCols ta := by rw [opCols_sq h3.1.1]; exact hk
    rw [mop_out w1 h2.1.1 ta (h1.1.1 ▸ hi) hk', mop_out w1 h2.1.2 tb (h1.1.2.1 ▸ hk') (h1.1.2.2 ▸ hj)]
  | trans A =>
    obtain ⟨m1, e1, w⟩ := (C33_trans A Y hY (fun i hi j hj i' hi' j' hj' e =>
      absurd e (h2 i hi j hj j' (h1.1 ▸ hj') i' (h1.2 ▸ hi'))) m).2 h1.2 h1.1
    exact ⟨m1, e1, w⟩

/-! ## The overloads build trees with the value of the expression -/

theorem fac_shape {s : MSrc K} {t : Bool} {A : DMat} (h : Fac s t A) :
    s.shape = some (A.opRows t, A.opCols t) ∧ (∀ m : Mem K, s.val m = A.op t m) ∧
    (∀ a, (∃ i < A.rows, ∃ j < A.cols, a = A.ref i j) ↔ s.Reads a) ∧
    (s.Square → t = true → A.rows = A.cols) := by
  cases h with
  | mat A => exact ⟨rfl, fun _ => rfl, fun _ => Iff.rfl, fun _ h => by simp at h⟩
  | t A => exact ⟨rfl, fun _ => rfl, fun _ => Iff.rfl, fun h _ => h⟩

/-- The addresses a tree reads. -/
def MExp.Reads (a : Nat) : MExp K → Prop
  | .leaf A | .trans A => ∃ i < A.rows, ∃ j < A.cols, a = A.ref i j
  | .scal _ e => e.Reads a
  | .mm1 _ _ _ A B => (∃ i < A.rows, ∃ j < A.cols, a = A.ref i j) ∨ ∃ i < B.rows, ∃ j < B.cols, a = B.ref i j
  | .mm2 _ _ _ A B _ e =>
    ((∃ i < A.rows, ∃ j < A.cols, a = A.ref i j) ∨ ∃ i < B.rows, ∃ j < B.cols, a = B.ref i j) ∨ e.Reads a

def VExp.Reads (a : Nat) : VExp K → Prop
  | .leaf x => ∃ k < x.len, a = x.ref k
  | .scal _ e => e.Reads a
  | .axpy _ x e => (∃ k < x.len, a = x.ref k) ∨ e.Reads a
  | .mv1 _ _ A x => (∃ i < A.rows, ∃ j < A.cols, a = A.ref i j) ∨ ∃ k < x.len, a = x.ref k
  | .mv2 _ _ A x _ e =>
    ((∃ i < A.rows, ∃ j < A.cols, a = A.ref i j) ∨ ∃ k < x.len, a = x.ref k) ∨ e.Reads a

omit [CommRing K] in
theorem mul_shape {s s' : MSrc K} {r c : Nat} (h : (MSrc.mul s s').shape = some (r, c)) :
    ∃ k, s.shape = some (r, k) ∧ s'.shape = some (k, c) := by
  unfold MSrc.shape at h
  split at h
  · rename_i r' k k' c' h1 h2
    split_ifs at h with hk
    injection h with h
    injection h with h3 h4
    subst h3 h4 hk
    exact ⟨k, h1, h2⟩
  · simp at h

omit [CommRing K] in
theorem add_shape {s s' : MSrc K} {p : Nat × Nat} (h : (MSrc.add s s').shape = some p) :
    s.shape = some p ∧ s'.shape = some p := by
  unfold MSrc.shape at h
  split_ifs at h with hk
  exact ⟨h, hk ▸ h⟩

theorem facs_fit {s s' : MSrc K} {ta tb : Bool} {A B : DMat} (ha : Fac s ta A) (hb : Fac s' tb B)
    {r k c : Nat} (h1 : s.shape = some (r, k)) (h2 : s'.shape = some (k, c)) :
    A.opRows ta = r ∧ A.opCols ta = B.opRows tb ∧ B.opCols tb = c := by
  rw [(fac_shape ha).1] at h1
  rw [(fac_shape hb).1] at h2
  injection h1 with h1; injection h1 with h1 h1'
  injection h2 with h2; injection h2 with h2 h2'
  exact ⟨h1, h1'.trans h2.symm, h2'⟩

/-- **The overloads for matrices.** -/
theorem MEl.sound {s : MSrc K} {e : MExp K} (h : MEl s e) :
    (∀ r c, s.shape = some (r, c) → e.Fits r c) ∧
    (∀ m i j, (∃ p, s.shape = some p) → e.den m i j = s.val m i j) ∧
    (∀ a, e.Reads a → s.Reads a) ∧ (s.Square → e.Square) := by
  have prod : ∀ {s s' : MSrc K} {ta tb : Bool} {A B : DMat}, Fac s ta A → Fac s' tb B →
      ∀ (m : Mem K) (i j : Nat), ∑ k ∈ Finset.range (A.opCols ta), A.op ta m i k * B.op tb m k j =
        ∑ k ∈ Finset.range (s.shape.elim 0 (·.2)), s.val m i k * s'.val m k j := by
    intro s s' ta tb A B ha hb m i j
    rw [(fac_shape ha).1, (fac_shape ha).2.1, (fac_shape hb).2.1]
    rfl
  induction h with
  | mat A =>
    refine ⟨?_, fun _ _ _ _ => rfl, fun _ h => h, fun _ => trivial⟩
    intro r c h; injection h with h; injection h with h1 h2; exact ⟨h1, h2⟩
  | t A =>
    refine ⟨?_, fun _ _ _ _ => rfl, fun _ h => h, fun _ => trivial⟩
    intro r c h; injection h with h; injection h with h1 h2; exact ⟨h1, h2⟩
  | scalScal alpha _ ih =>
    refine ⟨ih.1, fun m i j h => ?_, ih.2.2.1, ih.2.2.2⟩
    have := ih.2.1 m i j h
    simp only [MExp.den, MSrc.val] at this ⊢
    rw [← this]; ring
  | scalExp alpha _ ih =>
    refine ⟨ih.1, fun m i j h => ?_, ih.2.2.1, ih.2.2.2⟩
    have := ih.2.1 m i j h
    simp only [MExp.den, MSrc.val] at this ⊢
    rw [← this]
  | mul ha hb =>
    refine ⟨fun r c h => ?_, fun m i j _ => ?_, fun a h => ?_, fun h => ⟨(fac_shape ha).2.2.2 h.1,
      (fac_shape hb).2.2.2 h.2⟩⟩
    · obtain ⟨k, h1, h2⟩ := mul_shape h
      exact facs_fit ha hb h1 h2
    · simp only [MExp.den, MSrc.val, one_mul, prod ha hb]
    · exact h.imp ((fac_shape ha).2.2.1 a).1 ((fac_shape hb).2.2.1 a).1
  | scalMm1 alpha _ ih =>
    refine ⟨ih.1, fun m i j h => ?_, ih.2.2.1, ih.2.2.2⟩
    have := ih.2.1 m i j h
    simp only [MExp.den, MSrc.val] at this ⊢
    rw [← this]; ring
  | mulScalFac alpha ha hb =>
    refine ⟨fun r c h => ?_, fun m i j _ => ?_, fun a h => ?_, fun h => ⟨(fac_shape ha).2.2.2 h.1,
      (fac_shape hb).2.2.2 h.2⟩⟩
    · obtain ⟨k, h1, h2⟩ := mul_shape h
      exact facs_fit ha hb h1 h2
    · simp only [MExp.den, MSrc.val, MSrc.shape, mul_one, prod ha hb, Finset.mul_sum, mul_assoc]
    · exact h.imp ((fac_shape ha).2.2.1 a).1 ((fac_shape hb).2.2.1 a).1
  | mulFacScal beta ha hb =>
    refine ⟨fun r c h => ?_, fun m i j _ => ?_, fun a h => ?_, fun h => ⟨(fac_shape ha).2.2.2 h.1,
      (fac_shape hb).2.2.2 h.2⟩⟩
    · obtain ⟨k, h1, h2⟩ := mul_shape h
      exact facs_fit ha hb h1 h2
    · simp only [MExp.den, MSrc.val, mul_one, prod ha hb, Finset.mul_sum, mul_left_comm]
    · exact h.imp ((fac_shape ha).2.2.1 a).1 ((fac_shape hb).2.2.1 a).1
  | mulScalScal alpha beta ha hb =>
    refine ⟨fun r c h => ?_, fun m i j _ => ?_, fun a h => ?_, fun h => ⟨(fac_shape ha).2.2.2 h.1,
      (fac_shape hb).2.2.2 h.2⟩⟩
    · obtain ⟨k, h1, h2⟩ := mul_shape h
      exact facs_fit ha hb h1 h2
    · simp only [MExp.den, MSrc.val, MSrc.shape, mul_one, prod ha hb, Finset.mul_sum]
      exact Finset.sum_congr rfl fun k _ => by ring
    · exact h.imp ((fac_shape ha).2.2.1 a).1 ((fac_shape hb).2.2.1 a).1
  | addMm1 _ _ ih ih' =>
    refine ⟨fun r c h => ⟨ih.1 r c (add_shape h).1, ih'.1 r c (add_shape h).2⟩, fun m i j h => ?_,
      fun a h => h.imp (ih.2.2.1 a) (ih'.2.2.1 a), fun h => ⟨ih.2.2.2 h.1, ih'.2.2.2 h.2⟩⟩
    obtain ⟨p, h⟩ := h
    have h1 := ih.2.1 m i j ⟨p, (add_shape h).1⟩
    have h2 := ih'.2.1 m i j ⟨p, (add_shape h).2⟩
    simp only [MExp.den, MSrc.val] at h1 h2 ⊢
    rw [h1, h2, one_mul]
  | addMm1' _ _ ih' ih =>
    refine ⟨fun r c h => ⟨ih.1 r c (add_shape h).2, ih'.1 r c (add_shape h).1⟩, fun m i j h => ?_,
      fun a h => (h.imp (ih.2.2.1 a) (ih'.2.2.1 a)).symm, fun h => ⟨ih.2.2.2 h.2, ih'.2.2.2 h.1⟩⟩
    obtain ⟨p, h⟩ := h
    have h1 := ih.2.1 m i j ⟨p, (add_shape h).2⟩
    have h2 := ih'.2.1 m i j ⟨p, (add_shape h).1⟩
    simp only [MExp.den, MSrc.val] at h1 h2 ⊢
    rw [h1, h2, one_mul, add_comm]
  | addMm1Scal _ _ ih ih' =>
    refine ⟨fun r c h => ⟨ih.1 r c (add_shape h).1, ih'.1 r c (add_shape h).2⟩, fun m i j h => ?_,
      fun a h => h.imp (ih.2.2.1 a) (ih'.2.2.1 a), fun h => ⟨ih.2.2.2 h.1, ih'.2.2.2 h.2⟩⟩
    obtain ⟨p, h⟩ := h
    have h1 := ih.2.1 m i j ⟨p, (add_shape h).1⟩
    have h2 := ih'.2.1 m i j ⟨p, (add_shape h).2⟩
    simp only [MExp.den, MSrc.val] at h1 h2 ⊢
    rw [h1, h2]
  | addScalMm1 _ _ ih' ih =>
    refine ⟨fun r c h => ⟨ih.1 r c (add_shape h).2, ih'.1 r c (add_shape h).1⟩, fun m i j h => ?_,
      fun a h => (h.imp (ih.2.2.1 a) (ih'.2.2.1 a)).symm, fun h => ⟨ih.2.2.2 h.2, ih'.2.2.2 h.1⟩⟩
    obtain ⟨p, h⟩ := h
    have h1 := ih.2.1 m i j ⟨p, (add_shape h).2⟩
    have h2 := ih'.2.1 m i j ⟨p, (add_shape h).1⟩
    simp only [MExp.den, MSrc.val] at h1 h2 ⊢
    rw [h1, h2, add_comm]
  | scalMm2 alpha _ ih =>
    refine ⟨ih.1, fun m i j h => ?_, ih.2.2.1, ih.2.2.2⟩
    have := ih.2.1 m i j h
    simp only [MExp.den, MSrc.val] at this ⊢
    rw [← this]; ring

omit [CommRing K] in
theorem vadd_size {s s' : VSrc K} {n : Nat} (h : (VSrc.add s s').size = some n) :
    s.size = some n ∧ s'.size = some n := by
  unfold VSrc.size at h
  split_ifs at h with hk
  exact ⟨h, hk ▸ h⟩

omit [CommRing K] in
theorem vmul_size {M : MSrc K} {s : VSrc K} {n : Nat} (h : (VSrc.mul M s).size = some n) :
    ∃ k, M.shape = some (n, k) ∧ s.size = some k := by
  unfold VSrc.size at h
  split at h
  · rename_i r k k' h1 h2
    split_ifs at h with hk
    injection h with h
    subst h hk
    exact ⟨k, h1, h2⟩
  · simp at h

/-- **The overloads for vectors.** -/
theorem VEl.sound {s : VSrc K} {e : VExp K} (h : VEl s e) :
    (∀ n, s.size = some n → e.Fits n) ∧
    (∀ m i, (∃ n, s.size = some n) → e.den m i = s.val m i) ∧
    (∀ a, e.Reads a → s.Reads a) := by
  induction h with
  | vec x => exact ⟨fun n h => by injection h, fun _ _ _ => rfl, fun _ h => h⟩
  | scalScal alpha _ ih =>
    refine ⟨ih.1, fun m i h => ?_, ih.2.2⟩
    have := ih.2.1 m i h
    simp only [VExp.den, VSrc.val] at this ⊢
    rw [← this]; ring
  | scalExp alpha _ ih =>
    refine ⟨ih.1, fun m i h => ?_, ih.2.2⟩
    have := ih.2.1 m i h
    simp only [VExp.den, VSrc.val] at this ⊢
    rw [← this]
  | addVec x _ ih =>
    refine ⟨fun n h => ?_, fun m i h => ?_, fun a h => h.imp id (ih.2.2 a)⟩
    · have h1 := (vadd_size h).1
      injection h1 with h1
      exact ⟨h1, ih.1 n (vadd_size h).2⟩
    · obtain ⟨n, h⟩ := h
      have := ih.2.1 m i ⟨n, (vadd_size h).2⟩
      simp only [VExp.den, VSrc.val] at this ⊢
      rw [this, one_mul]
  | addVec' x _ ih =>
    refine ⟨fun n h => ?_, fun m i h => ?_, fun a h => (h.imp id (ih.2.2 a)).symm⟩
    · have h1 := (vadd_size h).2
      injection h1 with h1
      exact ⟨h1, ih.1 n (vadd_size h).1⟩
    · obtain ⟨n, h⟩ := h
      have := ih.2.1 m i ⟨n, (vadd_size h).1⟩
      simp only [VExp.den, VSrc.val] at this ⊢
      rw [this, one_mul, add_comm]
  | addScal _ _ ih ih' =>
    refine ⟨fun n h => ⟨ih.1 n (vadd_size h).1, ih'.1 n (vadd_size h).2⟩, fun m i h => ?_,
      fun a h => h.imp (ih.2.2 a) (ih'.2.2 a)⟩
    obtain ⟨n, h⟩ := h
    have h1 := ih.2.1 m i ⟨n, (vadd_size h).1⟩
    have h2 := ih'.2.1 m i ⟨n, (vadd_size h).2⟩
    simp only [VExp.den, VSrc.val] at h1 h2 ⊢
    rw [h1, h2]
  | addScal' _ _ ih' ih =>
    refine ⟨fun n h => ⟨ih.1 n (vadd_size h).2, ih'.1 n (vadd_size h).1⟩, fun m i h => ?_,
      fun a h => (h.imp (ih.2.2 a) (ih'.2.2 a)).symm⟩
    obtain ⟨n, h⟩ := h
    have h1 := ih.2.1 m i ⟨n, (vadd_size h).2⟩
    have h2 := ih'.2.1 m i ⟨n, (vadd_size h).1⟩
    simp only [VExp.den, VSrc.val] at h1 h2 ⊢
    rw [h1, h2, add_comm]
  | mv A x =>
    refine ⟨fun n h => ?_, fun m i h => ?_, fun a h => h⟩
    · obtain ⟨k, h1, h2⟩ := vmul_size h
      injection h1 with h1; injection h1 with h1 h1'
      injection h2 with h2
      exact ⟨h1'.trans h2.symm, h1⟩
    · obtain ⟨n, h⟩ := h
      obtain ⟨k, h1, h2⟩ := vmul_size h
      injection h1 with h1; injection h1 with h1 h1'
      injection h2 with h2
      simp [VExp.den, VSrc.val, MSrc.shape, MSrc.val, DMat.op, h2, h1']
  | scalMv1 alpha _ ih =>
    refine ⟨ih.1, fun m i h => ?_, ih.2.2⟩
    have := ih.2.1 m i h
    simp only [VExp.den, VSrc.val] at this ⊢
    rw [← this]; ring
  | mvT A x =>
    refine ⟨fun n h => ?_, fun m i h => ?_, fun a h => h⟩
    · obtain ⟨k, h1, h2⟩ := vmul_size h
      injection h1 with h1; injection h1 with h1 h1'
      injection h2 with h2
      exact ⟨h1'.trans h2.symm, h1⟩
    · obtain ⟨n, h⟩ := h
      obtain ⟨k, h1, h2⟩ := vmul_size h
      injection h1 with h1; injection h1 with h1 h1'
      injection h2 with h2
      simp [VExp.den, VSrc.val, MSrc.shape, MSrc.val, DMat.op, h2, h1']
  | @mvTScal s alpha x A _ ih =>
    refine ⟨fun n h => ?_, fun m i h => ?_, fun a h => h.imp id (ih.2.2 a)⟩
    · obtain ⟨k, h1, h2⟩ := vmul_size h
      injection h1 with h1; injection h1 with h1 h1'
      exact ⟨h1'.trans (ih.1 k h2).symm, h1⟩
    · obtain ⟨n, h⟩ := h
      obtain ⟨k, h1, h2⟩ := vmul_size h
      injection h1 with h1; injection h1 with h1 h1'
      have hx : x.len = k := ih.1 k h2
      have h3 := fun i => ih.2.1 m i ⟨k, h2⟩
      simp only [VExp.den] at h3
      simp only [VExp.den, VSrc.val, MSrc.shape, MSrc.val, DMat.op, hx, h1', ← h3, Option.elim_some,
        Finset.mul_sum, if_true]
      exact Finset.sum_congr rfl fun _ _ => by ring
  | @mvScal M alpha A x hM =>
    have hs := hM.sound
    refine ⟨fun n h => ?_, fun m i h => ?_, fun a h => h.imp (hs.2.2.1 a) id⟩
    · obtain ⟨k, h1, h2⟩ := vmul_size h
      injection h2 with h2
      have := hs.1 _ _ h1
      exact ⟨this.2.trans h2.symm, this.1⟩
    · obtain ⟨n, h⟩ := h
      obtain ⟨k, h1, h2⟩ := vmul_size h
      injection h2 with h2
      have h3 := fun i j => hs.2.1 m i j ⟨_, h1⟩
      simp only [MExp.den] at h3
      simp only [VExp.den, VSrc.val, h1, ← h3, h2, Option.elim_some, Finset.mul_sum, DMat.op,
        Bool.false_eq_true, if_false]
      exact Finset.sum_congr rfl fun _ _ => by ring
  | @mvVecScal s alpha x A _ ih =>
    refine ⟨fun n h => ?_, fun m i h => ?_, fun a h => h.imp id (ih.2.2 a)⟩
    · obtain ⟨k, h1, h2⟩ := vmul_size h
      injection h1 with h1; injection h1 with h1 h1'
      exact ⟨h1'.trans (ih.1 k h2).symm, h1⟩
    · obtain ⟨n, h⟩ := h
      obtain ⟨k, h1, h2⟩ := vmul_size h
      injection h1 with h1; injection h1 with h1 h1'
      have hx : x.len = k := ih.1 k h2
      have h3 := fun i => ih.2.1 m i ⟨k, h2⟩
      simp only [VExp.den] at h3
      simp only [VExp.den, VSrc.val, MSrc.shape, MSrc.val, DMat.op, hx, h1', ← h3, Option.elim_some,
        Finset.mul_sum, Bool.false_eq_true, if_false]
      exact Finset.sum_congr rfl fun _ _ => by ring
  | @mvScalScal M s alpha beta A x hM _ ih =>
    have hs := hM.sound
    refine ⟨fun n h => ?_, fun m i h => ?_, fun a h => h.imp (hs.2.2.1 a) (ih.2.2 a)⟩
    · obtain ⟨k, h1, h2⟩ := vmul_size h
      have := hs.1 _ _ h1
      exact ⟨this.2.trans (ih.1 k h2).symm, this.1⟩
    · obtain ⟨n, h⟩ := h
      obtain ⟨k, h1, h2⟩ := vmul_size h
      have hx : x.len = k := ih.1 k h2
      have h3 := fun i j => hs.2.1 m i j ⟨_, h1⟩
      have h4 := fun i => ih.2.1 m i ⟨k, h2⟩
      simp only [MExp.den] at h3
      simp only [VExp.den] at h4
      simp only [VExp.den, VSrc.val, h1, ← h3, ← h4, hx, Option.elim_some, Finset.mul_sum, DMat.op,
        Bool.false_eq_true, if_false]
      exact Finset.sum_congr rfl fun _ _ => by ring
  | addMv1 _ _ ih ih' =>
    refine ⟨fun n h => ⟨ih.1 n (vadd_size h).1, ih'.1 n (vadd_size h).2⟩, fun m i h => ?_,
      fun a h => h.imp (ih.2.2 a) (ih'.2.2 a)⟩
    obtain ⟨n, h⟩ := h
    have h1 := ih.2.1 m i ⟨n, (vadd_size h).1⟩
    have h2 := ih'.2.1 m i ⟨n, (vadd_size h).2⟩
    simp only [VExp.den, VSrc.val] at h1 h2 ⊢
    rw [h1, h2, one_mul]
  | addMv1' _ _ ih' ih =>
    refine ⟨fun n h => ⟨ih.1 n (vadd_size h).2, ih'.1 n (vadd_size h).1⟩, fun m i h => ?_,
      fun a h => (h.imp (ih.2.2 a) (ih'.2.2 a)).symm⟩
    obtain ⟨n, h⟩ := h
    have h1 := ih.2.1 m i ⟨n, (vadd_size h).2⟩
    have h2 := ih'.2.1 m i ⟨n, (vadd_size h).1⟩
    simp only [VExp.den, VSrc.val] at h1 h2 ⊢
    rw [h1, h2, one_mul, add_comm]
  | addMv1Scal _ _ ih ih' =>
    refine ⟨fun n h => ⟨ih.1 n (vadd_size h).1, ih'.1 n (vadd_size h).2⟩, fun m i h => ?_,
      fun a h => h.imp (ih.2.2 a) (ih'.2.2 a)⟩
    obtain ⟨n, h⟩ := h
    have h1 := ih.2.1 m i ⟨n, (vadd_size h).1⟩
    have h2 := ih'.2.1 m i ⟨n, (vadd_size h).2⟩
    simp only [VExp.den, VSrc.val] at h1 h2 ⊢
    rw [h1, h2]
  | addScalMv1 _ _ ih' ih =>
    refine ⟨fun n h => ⟨ih.1 n (vadd_size h).2, ih'.1 n (vadd_size h).1⟩, fun m i h => ?_,
      fun a h => (h.imp (ih.2.2 a) (ih'.2.2 a)).symm⟩
    obtain ⟨n, h⟩ := h
    have h1 := ih.2.1 m i ⟨n, (vadd_size h).2⟩
    have h2 := ih'.2.1 m i ⟨n, (vadd_size h).1⟩
    simp only [VExp.den, VSrc.val] at h1 h2 ⊢
    rw [h1, h2, add_comm]
  | scalMv2 alpha _ ih =>
    refine ⟨ih.1, fun m i h => ?_, ih.2.2⟩
    have := ih.2.1 m i h
    simp only [VExp.den, VSrc.val] at this ⊢
    rw [← this]; ring

omit [CommRing K] in
/-- A tree that reads nothing of the target is not disturbed by it. -/
theorem VExp.free_of_reads {y : DVec} {e : VExp K} (h : ∀ l < y.len, ¬ e.Reads (y.ref l)) : e.Free y := by
  induction e with
  | leaf x => exact fun k hk l hl e => absurd ⟨k, hk, e.symm⟩ (h l hl)
  | scal a e ih => exact ih h
  | axpy a x e ih =>
    exact ⟨fun k hk l hl e => h l hl (Or.inl ⟨k, hk, e.symm⟩), ih fun l hl hr => h l hl (Or.inr hr)⟩
  | mv1 t a A x =>
    exact ⟨fun i hi j hj l hl e => h l hl (Or.inl ⟨i, hi, j, hj, e.symm⟩),
      fun k hk l hl e => h l hl (Or.inr ⟨k, hk, e.symm⟩)⟩
  | mv2 t a A x b e ih =>
    exact ⟨⟨fun i hi j hj l hl e => h l hl (Or.inl (Or.inl ⟨i, hi, j, hj, e.symm⟩)),
      fun k hk l hl e => h l hl (Or.inl (Or.inr ⟨k, hk, e.symm⟩))⟩, ih fun l hl hr => h l hl (Or.inr hr)⟩

/-- The columns of the matrices do not overlap. -/
def MSrc.Proper : MSrc K → Prop
  | .mat A | .t A => A.rows ≤ A.ld
  | .smul _ e => e.Proper
  | .mul e e' | .add e e' => e.Proper ∧ e'.Proper

/-- The matrix that a tree copies, if it does. -/
def MExp.Proper : MExp K → Prop
  | .leaf A => A.rows ≤ A.ld
  | .scal _ e | .mm2 _ _ _ _ _ _ e => e.Proper
  | _ => True

theorem MEl.proper {s : MSrc K} {e : MExp K} (h : MEl s e) (hs : s.Proper) : e.Proper := by
  induction h with
  | mat A => exact hs
  | scalScal _ _ ih => exact ih hs
  | scalExp _ _ ih => exact ih hs
  | addMm1 _ _ _ ih => exact ih hs.2
  | addMm1' _ _ ih _ => exact ih hs.1
  | addMm1Scal _ _ _ ih => exact ih hs.2
  | addScalMm1 _ _ ih _ => exact ih hs.1
  | scalMm2 _ _ ih => exact ih hs
  | _ => trivial

omit [CommRing K] in
theorem MExp.free_of_reads {Y : DMat} {e : MExp K} (hp : e.Proper)
    (h : ∀ i < Y.rows, ∀ j < Y.cols, ¬ e.Reads (Y.ref i j)) : e.Free Y := by
  induction e with
  | leaf A =>
    exact ⟨hp, fun i hi j hj i' hi' j' hj' e => absurd ⟨i, hi, j, hj, e.symm⟩ (h i' hi' j' hj')⟩
  | scal a e ih => exact ih hp h
  | mm1 ta tb a A B =>
    exact ⟨fun i hi j hj i' hi' j' hj' e => h i' hi' j' hj' (Or.inl ⟨i, hi, j, hj, e.symm⟩),
      fun i hi j hj i' hi' j' hj' e => h i' hi' j' hj' (Or.inr ⟨i, hi, j, hj, e.symm⟩)⟩
  | mm2 ta tb a A B b e ih =>
    exact ⟨⟨fun i hi j hj i' hi' j' hj' e => h i' hi' j' hj' (Or.inl (Or.inl ⟨i, hi, j, hj, e.symm⟩)),
      fun i hi j hj i' hi' j' hj' e => h i' hi' j' hj' (Or.inl (Or.inr ⟨i, hi, j, hj, e.symm⟩))⟩,
      ih hp fun i hi j hj hr => h i hi j hj (Or.inr hr)⟩
  | trans A =>
    exact fun i hi j hj i' hi' j' hj' e => h i' hi' j' hj' ⟨i, hi, j, hj, e.symm⟩

/-! ## C101 -/

/-- **C101 (vectors).** `y = s`, for every expression `s` that the operators accept, of the length of
`y`: the elements of `y` become those of the value of `s` before, and nothing else changes.  Missing
from the property: targets that are operands (`C101_inplace_partial`, `C101_violates_alias`). -/
theorem C101_vector_partial (s : VSrc K) (e : VExp K) (hs : VEl s e) (y : DVec) (hy : 0 < y.inc)
    (hn : s.size = some y.len) (hr : ∀ l < y.len, ¬ s.Reads (y.ref l)) (m : Mem K) :
    ∃ m', e.eval y m = some m' ∧ VecWrite y m m' (s.val m) := by
  obtain ⟨m', h1, h2⟩ := VExp.eval_spec y hy m e (hs.sound.1 _ hn)
    (VExp.free_of_reads fun l hl h => hr l hl (hs.sound.2.2 _ h))
  refine ⟨m', h1, fun k hk => ?_, h2.2⟩
  rw [h2.1 k hk, hs.sound.2.1 m k ⟨_, hn⟩]

/-- **C101 (vectors in place).** The operand that is copied first, which is the innermost `y` of the
tree, may be the target, as in `y = A*x + y`, `y = 2*y` and `y = x + y`. -/
theorem C101_inplace_partial (s : VSrc K) (e : VExp K) (hs : VEl s e) (y : DVec) (hy : 0 < y.inc)
    (hn : s.size = some y.len) (hf : e.Free y) (m : Mem K) :
    ∃ m', e.eval y m = some m' ∧ VecWrite y m m' (s.val m) := by
  obtain ⟨m', h1, h2⟩ := VExp.eval_spec y hy m e (hs.sound.1 _ hn) hf
  refine ⟨m', h1, fun k hk => ?_, h2.2⟩
  rw [h2.1 k hk, hs.sound.2.1 m k ⟨_, hn⟩]

/-- **C101 (matrices).** `Y = s`, for every expression `s` other than a `DMat` that the operators
accept.  Missing from the property: targets that are operands, products of transposed matrices that are
not square (`C101_violates_transpose`), and a `DMat` alone (`C101_violates_copy`). -/
theorem C101_matrix_partial (s : MSrc K) (e : MExp K) (hs : MEl s e) (Y : DMat) (hY : Y.rows ≤ Y.ld)
    (hn : s.shape = some (Y.rows, Y.cols)) (hr : ∀ i < Y.rows, ∀ j < Y.cols, ¬ s.Reads (Y.ref i j))
    (hp : s.Proper) (hq : e.Square) (m : Mem K) :
    ∃ m', e.eval Y m = some m' ∧ MatWrite Y m m' (s.val m) := by
  obtain ⟨m', h1, h2⟩ := MExp.eval_spec Y hY m e (hs.sound.1 _ _ hn)
    (MExp.free_of_reads (hs.proper hp) fun i hi j hj h => hr i hi j hj (hs.sound.2.2.1 _ h)) hq
  refine ⟨m', h1, fun i hi j hj => ?_, h2.2⟩
  rw [h2.1 i hi j hj, hs.sound.2.1 m i j ⟨_, hn⟩]

/-- **C101 (compound assignments)**, also when the operand is the target. -/
theorem C101_compound (x y : DVec) (hy : 0 < y.inc) (ha : VecApart x y) (hl : x.len = y.len) (alpha : K)
    (A : DMat) (hA : A.rows ≤ A.ld) (m : Mem K) :
    VecWrite y m (timesEq alpha y m) (fun k => alpha * m (y.ref k)) ∧
    MatWrite A m (matTimesEq alpha A m) (fun i j => alpha * m (A.ref i j)) ∧
    (∃ m', plusEq x y m = some m' ∧ VecWrite y m m' (fun k => m (y.ref k) + m (x.ref k))) ∧
    (∃ m', minusEq x y m = some m' ∧ VecWrite y m m' (fun k => m (y.ref k) - m (x.ref k))) ∧
    (∃ m', plusEqScal alpha x y m = some m' ∧
      VecWrite y m m' (fun k => m (y.ref k) + alpha * m (x.ref k))) ∧
    ∃ m', minusEqScal alpha x y m = some m' ∧
      VecWrite y m m' (fun k => m (y.ref k) - alpha * m (x.ref k)) := by
  have ax : ∀ (a : K) (g : Nat → K), (∀ k, a * m (x.ref k) + m (y.ref k) = g k) →
      ∃ m', vaxpy a x y m = some m' ∧ VecWrite y m m' g := by
    intro a g hg
    obtain ⟨-, m2, -, e2, -, w2⟩ := (C33_vector2 x y hy ha a m).2 hl
    exact ⟨m2, e2, fun k hk => (w2.1 k hk).trans (hg k), w2.2⟩
  exact ⟨(C33_vector y hy alpha m).2.2.1, (C33_matrix A hA alpha 0 m).2.2, ax _ _ fun k => by ring,
    ax _ _ fun k => by ring, ax _ _ fun k => by ring, ax _ _ fun k => by ring⟩

/-- **C101 (`/=`)**. -/
theorem C101_divide {F : Type} [Field F] (y : DVec) (hy : 0 < y.inc) (alpha : F) (m : Mem F) :
    VecWrite y m (divideEq alpha y m) (fun k => m (y.ref k) / alpha) := by
  have := (C33_vector y hy (1 / alpha) m).2.2.1
  refine ⟨fun k hk => ?_, this.2⟩
  rw [divideEq, this.1 k hk]
  ring

/-- **C101 fails** for a target that is the first summand: `x = x + y` copies `y` to `x` and adds `x`
to it, which gives `2 y`. -/
theorem C101_violates_alias (x y : DVec) (hx : 0 < x.inc) (hl : x.len = y.len)
    (hd : ∀ k < y.len, ∀ l < x.len, y.ref k ≠ x.ref l) (m : Mem K) :
    ∃ e : VExp K, VEl (.add (.vec x) (.vec y)) e ∧
      ∃ m', e.eval x m = some m' ∧ ∀ k < x.len, m' (x.ref k) = 2 * m (y.ref k) := by
  refine ⟨.axpy 1 x (.leaf y), .addVec x (.vec y), ?_⟩
  obtain ⟨m1, -, e1, -, w1, -⟩ :=
    (C33_vector2 y x hx (fun k hk l hl e => absurd e (hd k hk l hl)) 1 m).2 hl.symm
  obtain ⟨-, m2, -, e2, -, w2⟩ := (C33_vector2 x x hx (fun k _ l _ e => vref_inj hx e) 1 m1).2 rfl
  refine ⟨m2, by rw [VExp.eval, VExp.eval, e1, Option.bind_some, e2], fun k hk => ?_⟩
  rw [w2.1 k hk]
  show 1 * m1 (x.ref k) + m1 (x.ref k) = _
  rw [w1.1 k hk]; ring

/-- `x + y` builds this tree, and `1 + 3` is not `2 * 3`. -/
example : VEl (K := ℤ) (.add (.vec ⟨1, 0, 1⟩) (.vec ⟨1, 1, 1⟩)) (.axpy 1 ⟨1, 0, 1⟩ (.leaf ⟨1, 1, 1⟩)) :=
  .addVec _ (.vec _)

example : ((VExp.axpy (1 : ℤ) ⟨1, 0, 1⟩ (.leaf ⟨1, 1, 1⟩)).eval ⟨1, 0, 1⟩
    (fun a => if a = 0 then 1 else 3)).map (· 0) = some 6 := by decide

/-- **C101 fails** for the product of a transposed matrix that is not square: `Y = A.t() * A` for a
column of two elements ends in the error handler. -/
theorem C101_violates_transpose : ∃ (A Y : DMat) (e : MExp K),
    MEl (.mul (.t A) (.mat A)) e ∧ (MSrc.mul (.t A) (.mat A) : MSrc K).shape = some (Y.rows, Y.cols) ∧
    MatDisjoint A Y ∧ ∀ m, e.eval Y m = none := by
  refine ⟨⟨2, 1, 0, 2⟩, ⟨1, 1, 2, 1⟩, .mm1 true false 1 ⟨2, 1, 0, 2⟩ ⟨2, 1, 0, 2⟩,
    .mul (.t _) (.mat _), rfl, ?_, fun m => rfl⟩
  unfold MatDisjoint DMat.ref
  decide

/-- **C101 fails** for `A = B` with `DMat` objects: afterwards the object `A` views the elements of `B`,
and the elements of the former `A` are what they were; a later assignment to `A` changes `B`. -/
theorem C101_violates_copy (A B : DMat) (hB : B.rows ≤ B.ld) (m : Mem K) (a : K) :
    (assignDMat A B m).2 = m ∧
    MatWrite B m (matTimesEq a (assignDMat A B m).1 (assignDMat A B m).2) (fun i j => a * m (B.ref i j)) :=
  ⟨rfl, (C33_matrix B hB a 0 m).2.2⟩

/-- `y = 2*A*x + 3*y` with `A = [1 2; 3 4]`, `x = (5, 6)`, `y = (1, 2)`, in place. -/
example : VEl (K := ℤ) (.add (.smul 2 (.mul (.mat ⟨2, 2, 0, 2⟩) (.vec ⟨2, 4, 1⟩)))
      (.smul 3 (.vec ⟨2, 6, 1⟩)))
    (.mv2 false (2 * 1) ⟨2, 2, 0, 2⟩ ⟨2, 4, 1⟩ 3 (.leaf ⟨2, 6, 1⟩)) :=
  .addMv1Scal (.scalMv1 _ (.mv _ _)) (.scalExp _ (.vec _))

example : ((VExp.mv2 false (2 * 1 : ℤ) ⟨2, 2, 0, 2⟩ ⟨2, 4, 1⟩ 3 (.leaf ⟨2, 6, 1⟩)).eval ⟨2, 6, 1⟩
    (fun a => ([1, 3, 2, 4, 5, 6, 1, 2] : List Int).getD a 0)).map (fun m => (m 6, m 7)) =
    some (2 * 17 + 3, 2 * 39 + 6) := by decide

/-- `Y = (2*A)*(3*A.t()) + Y'` with a square matrix. -/
example : MEl (K := ℤ) (.add (.mul (.smul 2 (.mat ⟨2, 2, 0, 2⟩)) (.smul 3 (.t ⟨2, 2, 0, 2⟩)))
      (.mat ⟨2, 2, 4, 2⟩))
    (.mm2 false true (2 * 3 * 1) ⟨2, 2, 0, 2⟩ ⟨2, 2, 0, 2⟩ 1 (.leaf ⟨2, 2, 4, 2⟩)) :=
  .addMm1 (.mulScalScal _ _ (.mat _) (.t _)) (.mat _)

end Verif.Mat
