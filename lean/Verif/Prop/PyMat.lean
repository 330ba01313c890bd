import Verif.Proof.PyMatInv

/-!
# C124: vectors and matrices of Python

Specification: what an object shows is a vector or a matrix over a field, and `opSpec` is the arithmetic
of numbers, vectors and matrices. An object is alive if its elements are in storage that is in use.
-/

namespace Verif.PyMat

open Verif.Mat

set_option linter.unusedSectionVars false
set_option linter.unusedSimpArgs false
variable {K : Type} [Field K] [DecidableEq K]

/-! ## Specification -/

inductive Val (K : Type) where
  | num (a : K)
  | vec (n : Nat) (f : Nat → K)
  | mat (m n : Nat) (f : Nat → Nat → K)

/-- what an object, and what an operand, holds. -/
def den (s : St K) : Obj → Val K
  | .vec d _ => .vec d.len fun k => s.mem (d.ref k)
  | .mat d _ => .mat d.rows d.cols fun i j => s.mem (d.ref i j)

def argDen (s : St K) : Arg K → Val K
  | .num a => .num a
  | .list l => .vec l.length fun k => l.getD k 0
  | .obj o => den s o

/-- the object holds the value. -/
def Shows (s : St K) : Obj → Val K → Prop
  | .vec d _, .vec n f => d.len = n ∧ ∀ k < n, s.mem (d.ref k) = f k
  | .mat d _, .mat m n f => d.rows = m ∧ d.cols = n ∧ ∀ i < m, ∀ j < n, s.mem (d.ref i j) = f i j
  | _, _ => False

/-- arithmetic; `none` where the operation means nothing. -/
def opSpec : Op → Val K → Val K → Option (Val K)
  | .add, .vec n f, .vec n' g => if n' = n then some (.vec n fun k => f k + g k) else none
  | .add, .vec n f, .num a => some (.vec n fun k => f k + a)
  | .add, .num a, .vec n f => some (.vec n fun k => a + f k)
  | .add, .mat m n f, .mat m' n' g =>
    if m' = m ∧ n' = n then some (.mat m n fun i j => f i j + g i j) else none
  | .add, .mat m n f, .num a => some (.mat m n fun i j => f i j + a)
  | .add, .num a, .mat m n f => some (.mat m n fun i j => a + f i j)
  | .sub, .vec n f, .vec n' g => if n' = n then some (.vec n fun k => f k - g k) else none
  | .sub, .vec n f, .num a => some (.vec n fun k => f k - a)
  | .sub, .num a, .vec n f => some (.vec n fun k => a - f k)
  | .sub, .mat m n f, .mat m' n' g =>
    if m' = m ∧ n' = n then some (.mat m n fun i j => f i j - g i j) else none
  | .sub, .mat m n f, .num a => some (.mat m n fun i j => f i j - a)
  | .sub, .num a, .mat m n f => some (.mat m n fun i j => a - f i j)
  | .mul, .vec n f, .num a => some (.vec n fun k => f k * a)
  | .mul, .num a, .vec n f => some (.vec n fun k => a * f k)
  | .mul, .mat m n f, .num a => some (.mat m n fun i j => f i j * a)
  | .mul, .num a, .mat m n f => some (.mat m n fun i j => a * f i j)
  | .mul, .mat m n f, .vec n' g =>
    if n = n' then some (.vec m fun i => ∑ k ∈ Finset.range n', f i k * g k) else none
  | .mul, .mat m n f, .mat m' n' g =>
    if n = m' then some (.mat m n' fun i j => ∑ k ∈ Finset.range n, f i k * g k j) else none
  | .div, .vec n f, .num a => if a = 0 then none else some (.vec n fun k => f k / a)
  | .div, .mat m n f, .num a => if a = 0 then none else some (.mat m n fun i j => f i j / a)
  | _, _, _ => none

/-- the negative, and the transpose. -/
def negSpec : Val K → Val K
  | .num a => .num (-a)
  | .vec n f => .vec n fun k => -f k
  | .mat m n f => .mat m n fun i j => -f i j

/-- the elements of the object are in storage that is in use. -/
def Alive (s : St K) (o : Obj) : Prop := ∀ a ∈ o.acc, s.live a = true

def ArgAlive (s : St K) : Arg K → Prop
  | .obj o => Alive s o
  | _ => True

/-- the states of programs. -/
def Reach (s : St K) : Prop := ∃ ps, run init ps = .ok s

/-- `o` is a new object: nothing that existed before is changed. -/
def Fresh (s s' : St K) (o : Obj) : Prop :=
  (∀ a < s.next, s'.mem a = s.mem a) ∧ (∀ a ∈ o.acc, s.next ≤ a) ∧ Alive s' o ∧
  ∃ b, o.own = some b ∧ ∀ a ∈ o.acc, Buf.has b a = true

/-! ## Lemmas -/

theorem Reach.inv {s : St K} (h : Reach s) : Inv s := by
  obtain ⟨ps, h⟩ := h
  exact run_inv ps _ _ inv_init h

theorem vok_of {s : St K} (hi : Inv s) {x : Nat} {d : DVec} {b : Option Buf} (h : s.get x = some (.vec d b))
    (ha : Alive s (.vec d b)) : VOk s d := by
  obtain ⟨B, h1, h2, h3⟩ := hi.bufs
  obtain ⟨c, hc, ⟨h4, h5⟩, -⟩ := h3 _ (get_mem h)
  refine ⟨h4, fun k hk => ?_, fun k hk => ha _ (mem_vAcc.2 ⟨k, hk, rfl⟩)⟩
  have h6 := h5 k hk
  rw [has_iff] at h6
  have := h1 c hc
  omega

theorem mok_of {s : St K} (hi : Inv s) {x : Nat} {d : DMat} {b : Option Buf} (h : s.get x = some (.mat d b))
    (ha : Alive s (.mat d b)) : MOk s d := by
  obtain ⟨B, h1, h2, h3⟩ := hi.bufs
  obtain ⟨c, hc, ⟨h4, h5⟩, -⟩ := h3 _ (get_mem h)
  refine ⟨h4, fun i hi' j hj => ?_, fun i hi' j hj => ha _ (mem_mAcc.2 ⟨i, hi', j, hj, rfl⟩)⟩
  have h6 := h5 i hi' j hj
  rw [has_iff] at h6
  have := h1 c hc
  omega

/-- an operand in order. -/
def ObjOk (s : St K) : Obj → Prop
  | .vec d _ => VOk s d
  | .mat d _ => MOk s d

def ArgOk (s : St K) : Arg K → Prop
  | .obj o => ObjOk s o
  | _ => True

theorem objOk_of {s : St K} (hi : Inv s) {x : Nat} {o : Obj} (h : s.get x = some o) (ha : Alive s o) :
    ObjOk s o := by
  cases o
  · exact vok_of hi h ha
  · exact mok_of hi h ha

/-- the result is a new object that shows the value. -/
def NewRes (s : St K) (r : Out (Obj × St K)) (v : Val K) : Prop :=
  ∃ o s', r = .ok (o, s') ∧ s'.env = s.env ∧ Fresh s s' o ∧ Shows s' o v

theorem newRes_vec {s : St K} {r : Out (Obj × St K)} {n : Nat} {f : Nat → K} (h : NewVec s r n f) :
    NewRes s r (.vec n f) := by
  obtain ⟨v, s', h1, h2, h3, h4, h5, h6⟩ := h
  refine ⟨_, s', h1, h2.env, ⟨h2.mem, ?_, h4.acc, _, rfl, ?_⟩, h5, h6⟩
  · intro a ha
    obtain ⟨k, -, rfl⟩ := mem_vAcc.1 ha
    exact h3.ref_ge k
  · intro a ha
    obtain ⟨k, hk, rfl⟩ := mem_vAcc.1 ha
    rw [has_iff]; simp only [DVec.ref, h3.inc]; omega

theorem newRes_mat {s : St K} {r : Out (Obj × St K)} {m n : Nat} {f : Nat → Nat → K}
    (h : NewMat s r m n f) : NewRes s r (.mat m n f) := by
  obtain ⟨v, s', h1, h2, h3, h4, h5, h6, h7⟩ := h
  refine ⟨_, s', h1, h2.env, ⟨h2.mem, ?_, h4.acc, _, rfl, ?_⟩, h5, h6, h7⟩
  · intro a ha
    obtain ⟨i, -, j, -, rfl⟩ := mem_mAcc.1 ha
    exact h3.ref_ge i j
  · intro a ha
    obtain ⟨i, hi, j, hj, rfl⟩ := mem_mAcc.1 ha
    rw [has_iff]; simp only [DMat.ref, h3.ld]; have := idx_lt hi hj; omega

/-- an operation either does what the specification says or fails. -/
def Does (s : St K) (r : Out (Obj × St K)) : Option (Val K) → Prop
  | some v => NewRes s r v
  | none => r = .exc ∨ r = .abort

theorem does_if {s : St K} {r : Out (Obj × St K)} {v : Val K} {p : Prop} [Decidable p]
    (h1 : p → NewRes s r v) (h2 : ¬ p → r = .exc ∨ r = .abort) : Does s r (if p then some v else none) := by
  split
  · exact h1 ‹_›
  · exact h2 ‹_›

theorem vSub_list {s : St K} {d : DVec} (l : List K) (h : VOk s d) :
    (l.length = d.len → NewVec s (vSub s d (.list l)) d.len (fun k => s.mem (d.ref k) - l.getD k 0)) ∧
    (l.length ≠ d.len → vSub s d (.list l) = .abort) := by
  obtain ⟨s1, h1, h2, h3, h4, -, h6⟩ := listVec_ok s l
  constructor
  · intro hl
    have := vOn_axpy (-1) (h.ext h2) h3 (by simpa [nv] using hl)
    rw [vSub, h1, bind_ok]
    refine NewVec.ext h2 (this.congr fun k hk => ?_)
    rw [h6 k (by omega), h2.mem _ (h.lt k hk)]; ring
  · intro hl
    rw [vSub, h1, bind_ok]
    exact vOn_axpy_len (-1) (h.ext h2) (by simpa [nv] using hl)

theorem vAdd_list {s : St K} {d : DVec} (l : List K) (h : VOk s d) :
    (l.length = d.len → NewVec s (vAdd s d (.list l)) d.len (fun k => s.mem (d.ref k) + l.getD k 0)) ∧
    (l.length ≠ d.len → vAdd s d (.list l) = .abort) := by
  obtain ⟨s1, h1, h2, h3, h4, h5, h6⟩ := dupVec_ok h
  obtain ⟨s2, g1, g2, g3, g4, g5, g6⟩ := listVec_ok s1 l
  constructor
  · intro hl
    obtain ⟨m, hm, hw⟩ := axpy_ok (1 : K) g3 (h3.ext g2) (by simpa [nv] using hl)
      (fun k hk j hj e => by
        have := g4.ref_ge k
        have := h3.lt j hj
        omega)
    have e2 := h2.trans g2
    have n2 : NewV s s2 (nv s d.len) := ⟨h4.inc, h4.ge, h4.le.trans g2.le⟩
    refine ⟨nv s d.len, { s2 with mem := m }, ?_, ext_vwrite e2 n2 hw, ⟨n2.inc, n2.ge, n2.le⟩,
      (h3.ext g2).mem _, rfl, ?_⟩
    · rw [vAdd, vOn, h1, bind_ok]
      simp only [vIadd]
      rw [g1]
      simp only [bind_ok, hm]
    · intro k hk
      refine (hw.1 k hk).trans ?_
      beta_reduce
      rw [g6 k (by omega), g2.mem _ (h3.lt k hk), h6 k hk]; ring
  · intro hl
    rw [vAdd, vOn, h1, bind_ok]
    simp only [vIadd]
    rw [g1]
    simp only [bind_ok]
    rw [axpy_len _ (by simpa [nv] using hl)]; rfl

theorem mMul_list {s : St K} {d : DMat} (l : List K) (h : MOk s d) :
    (d.cols = l.length → NewVec s (mMul s d (.list l)) d.rows
      (fun i => ∑ k ∈ Finset.range l.length, s.mem (d.ref i k) * l.getD k 0)) ∧
    (d.cols ≠ l.length → mMul s d (.list l) = .exc) := by
  obtain ⟨s1, h1, h2, h3, h4, -, h6⟩ := listVec_ok s l
  constructor
  · intro hl
    have := mulVec_ok (h.ext h2) h3 (by simpa [nv] using hl)
    rw [mMul, h1, bind_ok]
    refine NewVec.ext h2 (this.congr fun k hk => ?_)
    refine Finset.sum_congr rfl fun i hi => ?_
    have hi : i < l.length := by simpa [nv] using hi
    rw [h6 i hi, h2.mem _ (h.lt k hk i (by omega))]
  · intro hl
    rw [mMul, h1, bind_ok]
    exact mulVec_exc (by simpa [nv] using hl)

theorem vec_does {s : St K} (op : Op) {d : DVec} {b : Option Buf} {w : Arg K} (ho : VOk s d) (hw : ArgOk s w) :
    Does s (binop s op (.vec d b) w) (opSpec op (den s (.vec d b)) (argDen s w)) := by
  match op, w with
  | .add, .num a => exact newRes_vec (vOn_inc a ho)
  | .add, .list l =>
    exact does_if (fun h => newRes_vec ((vAdd_list l ho).1 h)) (fun h => Or.inr ((vAdd_list l ho).2 h))
  | .add, .obj (.vec w _) =>
    exact does_if (fun h => newRes_vec ((vOn_axpy 1 ho hw h).congr fun k _ => by ring))
      (fun h => Or.inr (vOn_axpy_len 1 ho h))
  | .add, .obj (.mat w _) => exact Or.inl (vOn_exc ho fun _ _ => rfl)
  | .sub, .num a =>
    exact newRes_vec ((vOn_inc (-a) ho).congr fun k _ => by ring)
  | .sub, .list l =>
    exact does_if (fun h => newRes_vec ((vSub_list l ho).1 h)) (fun h => Or.inr ((vSub_list l ho).2 h))
  | .sub, .obj (.vec w _) =>
    exact does_if (fun h => newRes_vec ((vOn_axpy (-1) ho hw h).congr fun k _ => by ring))
      (fun h => Or.inr (vOn_axpy_len (-1) ho h))
  | .sub, .obj (.mat w _) => exact Or.inl rfl
  | .mul, .num a => exact newRes_vec ((vOn_mul a ho).congr fun k _ => by ring)
  | .mul, .list l => exact Or.inl (vOn_exc ho fun _ _ => rfl)
  | .mul, .obj (.vec w _) => exact Or.inl (vOn_exc ho fun _ _ => rfl)
  | .mul, .obj (.mat w _) => exact Or.inl (vOn_exc ho fun _ _ => rfl)
  | .div, .num a =>
    simp only [binop, den, argDen, opSpec, vDiv]
    split
    · rename_i h0
      exact Or.inl (vOn_exc ho fun _ _ => by rw [vIdiv, if_pos h0])
    · rename_i h0
      exact newRes_vec (vOn_div h0 ho)
  | .div, .list l => exact Or.inl (vOn_exc ho fun _ _ => rfl)
  | .div, .obj (.vec w _) => exact Or.inl (vOn_exc ho fun _ _ => rfl)
  | .div, .obj (.mat w _) => exact Or.inl (vOn_exc ho fun _ _ => rfl)

theorem mat_does {s : St K} (op : Op) {d : DMat} {b : Option Buf} {w : Arg K} (ho : MOk s d) (hw : ArgOk s w) :
    Does s (binop s op (.mat d b) w) (opSpec op (den s (.mat d b)) (argDen s w)) := by
  match op, w with
  | .add, .num a => exact newRes_mat (mOn_inc a ho)
  | .add, .list l => exact Or.inl rfl
  | .add, .obj (.vec w _) => exact Or.inl rfl
  | .add, .obj (.mat w _) =>
    exact does_if (fun h => newRes_mat ((mOn_axpy 1 ho hw h.1 h.2).congr fun _ _ _ _ => by ring))
      (fun h => Or.inr (mOn_axpy_len 1 ho h))
  | .sub, .num a => exact newRes_mat ((mOn_inc (-a) ho).congr fun _ _ _ _ => by ring)
  | .sub, .list l => exact Or.inl rfl
  | .sub, .obj (.vec w _) => exact Or.inl rfl
  | .sub, .obj (.mat w _) =>
    exact does_if (fun h => newRes_mat ((mOn_axpy (-1) ho hw h.1 h.2).congr fun _ _ _ _ => by ring))
      (fun h => Or.inr (mOn_axpy_len (-1) ho h))
  | .mul, .num a => exact newRes_mat ((mOn_mul a ho).congr fun _ _ _ _ => by ring)
  | .mul, .list l =>
    exact does_if (fun h => newRes_vec ((mMul_list l ho).1 h)) (fun h => Or.inl ((mMul_list l ho).2 h))
  | .mul, .obj (.vec w _) =>
    exact does_if (fun h => newRes_vec (mulVec_ok ho hw h)) (fun h => Or.inl (mulVec_exc h))
  | .mul, .obj (.mat w _) =>
    exact does_if (fun h => newRes_mat (mulMat_ok ho hw h)) (fun h => Or.inl (mulMat_exc h))
  | .div, .num a =>
    simp only [binop, den, argDen, opSpec, mDiv]
    split
    · rename_i h0
      exact Or.inl (mOn_exc ho fun _ _ => by rw [mIdiv, if_pos h0])
    · rename_i h0
      exact newRes_mat (mOn_div h0 ho)
  | .div, .list l => exact Or.inl (mOn_exc ho fun _ _ => rfl)
  | .div, .obj (.vec w _) => exact Or.inl (mOn_exc ho fun _ _ => rfl)
  | .div, .obj (.mat w _) => exact Or.inl (mOn_exc ho fun _ _ => rfl)

theorem binop_does {s : St K} (op : Op) {o : Obj} {w : Arg K} (ho : ObjOk s o) (hw : ArgOk s w) :
    Does s (binop s op o w) (opSpec op (den s o) (argDen s w)) := by
  cases o with
  | vec d b => exact vec_does op ho hw
  | mat d b => exact mat_does op ho hw

/-- a number or a list on the left. -/
theorem rbinop_does {s : St K} (op : Op) {o : Obj} {w : Arg K} (ho : ObjOk s o)
    (hw : ∀ o', w ≠ .obj o') :
    Does s (rbinop s op w o) (opSpec op (argDen s w) (den s o)) := by
  cases o with
  | vec d b =>
    have ho : VOk s d := ho
    match op, w with
    | _, .obj o' => exact absurd rfl (hw o')
    | .add, .num a => exact newRes_vec ((vOn_inc a ho).congr fun k _ => by ring)
    | .add, .list l =>
      refine does_if (fun h => ?_) (fun h => Or.inr ((vAdd_list l ho).2 (Ne.symm h)))
      have := (vAdd_list l ho).1 h.symm
      rw [h] at this
      exact newRes_vec (this.congr fun k _ => by ring)
    | .sub, .num a => exact newRes_vec (vRsub_num_ok a ho)
    | .sub, .list l =>
      exact does_if (fun h => newRes_vec (vRsub_list_ok l ho h.symm))
        (fun h => Or.inr (vRsub_list_len l (Ne.symm h)))
    | .mul, .num a => exact newRes_vec ((vOn_mul a ho).congr fun k _ => by ring)
    | .mul, .list l => exact Or.inl (vOn_exc ho fun _ _ => rfl)
    | .div, .num a => exact Or.inl rfl
    | .div, .list l => exact Or.inl rfl
  | mat d b =>
    have ho : MOk s d := ho
    match op, w with
    | _, .obj o' => exact absurd rfl (hw o')
    | .add, .num a => exact newRes_mat ((mOn_inc a ho).congr fun _ _ _ _ => by ring)
    | .add, .list l => exact Or.inl rfl
    | .sub, .num a => exact newRes_mat (mRsub_ok a ho)
    | .sub, .list l => exact Or.inl rfl
    | .mul, .num a => exact newRes_mat ((mOn_mul a ho).congr fun _ _ _ _ => by ring)
    | .mul, .list l => exact Or.inl rfl
    | .div, .num a => exact Or.inl rfl
    | .div, .list l => exact Or.inl rfl

theorem neg_does {s : St K} {o : Obj} (ho : ObjOk s o) : NewRes s (negObj s o) (negSpec (den s o)) := by
  cases o with
  | vec d b => exact newRes_vec ((vOn_mul (-1) ho).congr fun k _ => by ring)
  | mat d b => exact newRes_mat ((mOn_mul (-1) ho).congr fun _ _ _ _ => by ring)

theorem dup_does {s : St K} {o : Obj} (ho : ObjOk s o) : NewRes s (dupObj s o) (den s o) := by
  cases o with
  | vec d b =>
    obtain ⟨s1, h1, h2, h3, h4, h5, h6⟩ := dupVec_ok (d := d) ho
    exact newRes_vec ⟨_, s1, by rw [dupObj, h1]; rfl, h2, h4, h3, rfl, h6⟩
  | mat d b =>
    obtain ⟨s1, h1, h2, h3, h4, h5, h6⟩ := dupMat_ok (d := d) ho
    exact newRes_mat ⟨_, s1, by rw [dupObj, h1]; rfl, h2, h4, h3, rfl, rfl, h6⟩

/-! ## Operators that make new objects -/

/-- after the statement `x` names a new object that shows `v`, every other variable names what it
named, and every element that existed holds what it held. -/
def Made (s : St K) (r : Out (St K)) (x : Nat) (v : Val K) : Prop :=
  ∃ s' o, r = .ok s' ∧ s'.get x = some o ∧ Shows s' o v ∧
    (∀ z, z ≠ x → s'.get z = s.get z) ∧ (∀ a < s.next, s'.mem a = s.mem a) ∧
    (∀ a ∈ o.acc, s.next ≤ a) ∧ Alive s' o

theorem made_of {s : St K} {r : Out (Obj × St K)} {x : Nat} {v : Val K} (h : NewRes s r v) :
    Made s (r.bind (bindTo x)) x v := by
  obtain ⟨o, s', h1, h2, ⟨h3, h4, h5, b, h6, h7⟩, h8⟩ := h
  refine ⟨s'.put x o, o, by rw [h1]; rfl, by rw [get_put, if_pos rfl], ?_, ?_, h3, h4, ?_⟩
  · cases o <;> cases v <;> exact h8
  · intro z hz
    rw [get_put, if_neg hz]
    simp only [St.get, h2]
  · intro a ha
    simp only [St.live, St.put, List.any_cons, Bool.or_eq_true]
    left; left
    rw [h6]
    exact h7 a ha

theorem look_get {s : St K} {x : Nat} {o : Obj} (h : s.get x = some o) : look s x = .ok o := by
  rw [look, h]

/-- **C124.** Operators, copies and the transpose make new objects with the elements that arithmetic
names, and change nothing that existed; where the operation means nothing they raise or stop. The operands
must be alive. -/
theorem C124_operators_partial (s : St K) (hs : Reach s) (x : Nat) :
    (∀ op y o w a, s.get y = some o → Alive s o → evalRef s w = .ok a → ArgAlive s a →
      match opSpec op (den s o) (argDen s a) with
      | some v => Made s (step s (.bin x op y w)) x v
      | none => step s (.bin x op y w) = .exc ∨ step s (.bin x op y w) = .abort) ∧
    (∀ op y o a, s.get y = some o → Alive s o →
      match opSpec op (.num a) (den s o) with
      | some v => Made s (step s (.rbinNum x op a y)) x v
      | none => step s (.rbinNum x op a y) = .exc ∨ step s (.rbinNum x op a y) = .abort) ∧
    (∀ op y o l, s.get y = some o → Alive s o →
      match opSpec op (argDen s (.list l)) (den s o) with
      | some v => Made s (step s (.rbinList x op l y)) x v
      | none => step s (.rbinList x op l y) = .exc ∨ step s (.rbinList x op l y) = .abort) ∧
    (∀ y o, s.get y = some o → Alive s o →
      Made s (step s (.neg x y)) x (negSpec (den s o)) ∧ Made s (step s (.dup x y)) x (den s o)) ∧
    (∀ y d b, s.get y = some (.mat d b) → Alive s (.mat d b) →
      Made s (step s (.trans x y)) x (.mat d.cols d.rows fun i j => s.mem (d.ref j i))) ∧
    (∀ n, Made s (step s (.vecNew x n)) x (.vec n fun _ => 0)) ∧
    (∀ l, Made s (step s (.vecList x l)) x (.vec l.length fun k => l.getD k 0)) ∧
    (∀ m n, Made s (step s (.matNew x m n)) x (.mat m n fun _ _ => 0)) := by
  have hi := hs.inv
  have lift : ∀ (r : Out (Obj × St K)) (q : Option (Val K)), Does s r q →
      match q with
      | some v => Made s (r.bind (bindTo x)) x v
      | none => r.bind (bindTo x) = .exc ∨ r.bind (bindTo x) = .abort := by
    intro r q h
    cases q with
    | some v => exact made_of h
    | none => rcases h with h | h <;> rw [h] <;> simp
  have argOk : ∀ w a, evalRef s w = .ok a → ArgAlive s a → ArgOk s a := by
    intro w a h ha
    cases w with
    | num a => injection h with h; subst h; trivial
    | list l => injection h with h; subst h; trivial
    | var z =>
      obtain ⟨o, h1, h2⟩ := bind_eq_ok h
      injection h2 with h2
      subst h2
      exact objOk_of hi (look_ok h1) ha
  refine ⟨?_, ?_, ?_, ?_, ?_, ?_, ?_, ?_⟩
  · intro op y o w a hy ho hw ha
    have := lift _ _ (binop_does op (objOk_of hi hy ho) (argOk w a hw ha))
    simp only [step, look_get hy, bind_ok, hw]
    exact this
  · intro op y o a hy ho
    have := lift _ _ (rbinop_does op (w := .num a) (objOk_of hi hy ho) nofun)
    simp only [step, look_get hy, bind_ok]
    exact this
  · intro op y o l hy ho
    have := lift _ _ (rbinop_does op (w := .list l) (objOk_of hi hy ho) nofun)
    simp only [step, look_get hy, bind_ok]
    exact this
  · intro y o hy ho
    have ok := objOk_of hi hy ho
    simp only [step, look_get hy, bind_ok]
    exact ⟨made_of (neg_does ok), made_of (dup_does ok)⟩
  · intro y d b hy ho
    simp only [step, look_get hy, bind_ok, asMat]
    exact made_of (newRes_mat (transpose_ok (mok_of hi hy ho)))
  · intro n
    obtain ⟨h1, h2, h3⟩ := newVec_ok s n
    exact made_of (r := .ok (ownVec (nv s n), (alloc s n).2))
      (newRes_vec ⟨_, _, rfl, alloc_ext s n, h2, h1, rfl, h3⟩)
  · intro l
    obtain ⟨s1, h1, h2, h3, h4, h5, h6⟩ := listVec_ok s l
    have := made_of (x := x) (r := .ok (ownVec (nv s l.length), s1))
      (newRes_vec ⟨_, _, rfl, h2, h4, h3, rfl, h6⟩)
    simp only [step, h1, bind_ok]
    exact this
  · intro m n
    obtain ⟨h1, h2, h3⟩ := newMat_ok s m n
    exact made_of (r := .ok (ownMat (nm s m n), (alloc s (m * n)).2))
      (newRes_mat ⟨_, _, rfl, alloc_ext s _, h2, h1, rfl, rfl, h3⟩)

/-! ## Operators in place -/

/-- the operand does not partly overlap the object that is changed. -/
def Apart : Obj → Arg K → Prop
  | .vec d _, .obj (.vec w _) => VecApart w d
  | .mat d _, .obj (.mat w _) => MatApart w d
  | _, _ => True

/-- after the statement every variable names what it named, the elements of the object show `v`, and
every other element that existed holds what it held. -/
def Changed (s : St K) (r : Out (St K)) (o : Obj) (v : Val K) : Prop :=
  ∃ s', r = .ok s' ∧ (∀ z, s'.get z = s.get z) ∧ Shows s' o v ∧
    ∀ a < s.next, a ∉ o.acc → s'.mem a = s.mem a

theorem put_same {s : St K} {x : Nat} {o : Obj} (h : s.get x = some o) (s' : St K) (he : s'.env = s.env)
    (z : Nat) : (s'.put x o).get z = s.get z := by
  rw [get_put]
  split
  · rename_i e; rw [e, h]
  · simp only [St.get, he]

theorem changed_vec {s : St K} {x : Nat} {d : DVec} {b : Option Buf} {n : Nat} {f g : Nat → K}
    (h : s.get x = some (.vec d b)) {r : Out (St K)} (hr : VAct s r d f) (hn : d.len = n)
    (e : ∀ k < n, f k = g k) :
    Changed s ((r.bind fun s1 => .ok ((.vec d b : Obj), s1)).bind (bindTo x)) (.vec d b) (.vec n g) := by
  obtain ⟨m, h1, h2, h3⟩ := hr
  refine ⟨St.put { s with mem := m } x (.vec d b), by rw [h1]; rfl, put_same h _ rfl, ⟨hn, ?_⟩, ?_⟩
  · intro k hk
    exact (h2 k (by omega)).trans (e k hk)
  · intro a _ ha
    exact h3 a fun k hk e => ha (mem_vAcc.2 ⟨k, hk, e.symm⟩)

theorem changed_mat {s : St K} {x : Nat} {d : DMat} {b : Option Buf} {f g : Nat → Nat → K}
    (h : s.get x = some (.mat d b)) {r : Out (St K)} (hr : MAct s r d f)
    (e : ∀ i < d.rows, ∀ j < d.cols, f i j = g i j) :
    Changed s ((r.bind fun s1 => .ok ((.mat d b : Obj), s1)).bind (bindTo x)) (.mat d b)
      (.mat d.rows d.cols g) := by
  obtain ⟨m, h1, h2, h3⟩ := hr
  refine ⟨St.put { s with mem := m } x (.mat d b), by rw [h1]; rfl, put_same h _ rfl, ⟨rfl, rfl, ?_⟩, ?_⟩
  · intro i hi j hj
    exact (h2 i hi j hj).trans (e i hi j hj)
  · intro a _ ha
    exact h3 a fun i hi j hj e => ha (mem_mAcc.2 ⟨i, hi, j, hj, e.symm⟩)

/-- **C124.** `+=`, `*=` and `/=` on a vector and all four on a matrix change the object itself: every
name of it and every view of it shows the result, and no other element changes. The object and the operand
must be alive and not partly overlap, and to a square matrix a number may be added or subtracted only if
its columns are adjacent. -/
theorem C124_inplace_partial (s : St K) (hs : Reach s) (x : Nat) (o : Obj) (hx : s.get x = some o)
    (ho : Alive s o) (op : Op) (w : Ref K) (a : Arg K) (hw : evalRef s w = .ok a) (ha : ArgAlive s a)
    (hap : Apart o a) (hop : op = .sub → ∃ d b, o = .mat d b) (hmul : op = .mul → ∃ c, a = .num c)
    (hinc : ∀ d b, o = .mat d b → d.rows ≠ d.cols ∨ d.ld = d.rows) :
    match opSpec op (den s o) (argDen s a) with
    | some v => Changed s (step s (.ibin x op w)) o v
    | none => step s (.ibin x op w) = .exc ∨ step s (.ibin x op w) = .abort := by
  have hi := hs.inv
  have argOk : ArgOk s a := by
    cases w with
    | num a => injection hw with hw; subst hw; trivial
    | list l => injection hw with hw; subst hw; trivial
    | var z =>
      obtain ⟨o, h1, h2⟩ := bind_eq_ok hw
      injection h2 with h2
      subst h2
      exact objOk_of hi (look_ok h1) ha
  simp only [step, look_get hx, bind_ok, hw]
  cases o with
  | vec d b =>
    have ok := vok_of hi hx ho
    cases op with
    | sub => obtain ⟨d', b', h⟩ := hop rfl; cases h
    | add =>
      rcases a with c | l | (⟨u, e⟩ | ⟨u, e⟩) <;> simp only [ibinop, den, argDen, opSpec, vIadd]
      · exact changed_vec hx (increment_ok c ok) rfl fun _ _ => rfl
      · obtain ⟨s1, h1, h2, h3, h4, h5, h6⟩ := listVec_ok s l
        by_cases hl : l.length = d.len
        · rw [if_pos hl]
          obtain ⟨m, g1, g2, g3⟩ := axpy_ok (1 : K) h3 (ok.ext h2) (by simpa [nv] using hl)
            (fun k hk j hj e => absurd e.symm (apart_new ok h4 j hj k hk))
          refine ⟨St.put { s1 with mem := m } x (.vec d b), ?_, put_same hx _ h2.env, ⟨rfl, ?_⟩, ?_⟩
          · rw [h1]; simp only [bind_ok, g1]; rfl
          · intro k hk
            refine (g2 k hk).trans ?_
            beta_reduce
            rw [h6 k (by omega), h2.mem _ (ok.lt k hk)]; ring
          · intro a h7 h8
            exact (g3 a fun k hk e => h8 (mem_vAcc.2 ⟨k, hk, e.symm⟩)).trans (h2.mem a h7)
        · rw [if_neg hl, h1]
          simp only [bind_ok]
          rw [axpy_len _ (by simpa [nv] using hl)]
          exact Or.inr rfl
      · by_cases hl : u.len = d.len
        · rw [if_pos hl]
          exact changed_vec hx (axpy_ok 1 argOk ok hl hap) rfl fun _ _ => by ring
        · rw [if_neg hl, axpy_len _ hl]
          exact Or.inr rfl
      · exact Or.inl rfl
    | mul =>
      obtain ⟨c, rfl⟩ := hmul rfl
      exact changed_vec hx (vImul_ok c ok) rfl fun _ _ => by ring
    | div =>
      rcases a with c | l | (⟨u, e⟩ | ⟨u, e⟩) <;> simp only [ibinop, den, argDen, opSpec]
      · by_cases h0 : c = 0
        · rw [if_pos h0, vIdiv, if_pos h0]; exact Or.inl rfl
        · rw [if_neg h0]
          exact changed_vec hx (vIdiv_ok h0 ok) rfl fun _ _ => by field_simp
      all_goals exact Or.inl rfl
  | mat d b =>
    have ok := mok_of hi hx ho
    have hc := hinc d b rfl
    cases op with
    | sub =>
      rcases a with c | l | (⟨u, e⟩ | ⟨u, e⟩) <;> simp only [ibinop, den, argDen, opSpec, mIsub]
      · exact changed_mat hx (minc_ok (-c) ok hc) fun _ _ _ _ => by ring
      · exact Or.inl rfl
      · exact Or.inl rfl
      · by_cases hl : u.rows = d.rows ∧ u.cols = d.cols
        · rw [if_pos hl]
          exact changed_mat hx (maxpy_ok (-1) argOk ok hl.1 hl.2 hap) fun _ _ _ _ => by ring
        · rw [if_neg hl, maxpy_len _ hl]
          exact Or.inr rfl
    | add =>
      rcases a with c | l | (⟨u, e⟩ | ⟨u, e⟩) <;> simp only [ibinop, den, argDen, opSpec, mIadd]
      · exact changed_mat hx (minc_ok c ok hc) fun _ _ _ _ => rfl
      · exact Or.inl rfl
      · exact Or.inl rfl
      · by_cases hl : u.rows = d.rows ∧ u.cols = d.cols
        · rw [if_pos hl]
          exact changed_mat hx (maxpy_ok 1 argOk ok hl.1 hl.2 hap) fun _ _ _ _ => by ring
        · rw [if_neg hl, maxpy_len _ hl]
          exact Or.inr rfl
    | mul =>
      obtain ⟨c, rfl⟩ := hmul rfl
      exact changed_mat hx (mImul_ok c ok) fun _ _ _ _ => by ring
    | div =>
      rcases a with c | l | (⟨u, e⟩ | ⟨u, e⟩) <;> simp only [ibinop, den, argDen, opSpec]
      · by_cases h0 : c = 0
        · rw [if_pos h0, mIdiv, if_pos h0]; exact Or.inl rfl
        · rw [if_neg h0]
          exact changed_mat hx (mIdiv_ok h0 ok) fun _ _ _ _ => by field_simp
      all_goals exact Or.inl rfl

/-! ## Views and elements -/

theorem toSize_nat (z : Int) (h0 : 0 ≤ z) (h1 : z < 2 ^ 64) : toSize z = z.toNat := by
  rw [toSize, Int.emod_eq_of_lt h0 h1]

/-- the statement binds `x` to `o` and does nothing else. -/
def Binds (s : St K) (r : Out (St K)) (x : Nat) (o : Obj) : Prop :=
  ∃ s', r = .ok s' ∧ s'.mem = s.mem ∧ s'.get x = some o ∧ ∀ z, z ≠ x → s'.get z = s.get z

theorem binds_of (s : St K) (x : Nat) (o : Obj) : Binds s (bindTo x (o, s)) x o :=
  ⟨s.put x o, rfl, rfl, by rw [get_put, if_pos rfl], fun z hz => by rw [get_put, if_neg hz]⟩

/-- **C124.** Rows, columns, the diagonal, blocks and slices are views of the elements that Python
programmers expect, and a second name is a name of the same object. Sizes are below `2^64`, as they are in
the fields; slices must be inside the vector and their step must divide their extent; blocks must be inside
the matrix and have all four bounds. -/
theorem C124_views_partial (s : St K) (x y : Nat) :
    (∀ d b (i : Int), s.get y = some (.mat d b) → d.rows < 2 ^ 64 →
      (0 ≤ i ∧ i < d.rows → ∃ v, Binds s (step s (.row x y i)) x (.vec v none) ∧ v.len = d.cols ∧
        ∀ j < d.cols, v.ref j = d.ref i.toNat j) ∧
      (¬ (0 ≤ i ∧ i < d.rows) → step s (.row x y i) = .exc)) ∧
    (∀ d b (j : Int), s.get y = some (.mat d b) → d.cols < 2 ^ 64 →
      (0 ≤ j ∧ j < d.cols → ∃ v, Binds s (step s (.col x y j)) x (.vec v none) ∧ v.len = d.rows ∧
        ∀ i < d.rows, v.ref i = d.ref i j.toNat) ∧
      (¬ (0 ≤ j ∧ j < d.cols) → step s (.col x y j) = .exc)) ∧
    (∀ d b, s.get y = some (.mat d b) →
      ∃ v, Binds s (step s (.diag x y)) x (.vec v none) ∧ v.len = min d.rows d.cols ∧
        ∀ i < v.len, v.ref i = d.ref i i) ∧
    (∀ d b (i0 i1 j0 j1 : Int), s.get y = some (.mat d b) → d.rows < 2 ^ 64 → d.cols < 2 ^ 64 →
      0 ≤ i0 → i0 < i1 → i1 ≤ d.rows → 0 ≤ j0 → j0 < j1 → j1 ≤ d.cols →
      ∃ M, Binds s (step s (.block x y i0 i1 none j0 j1 none)) x (.mat M none) ∧
        M.rows = (i1 - i0).toNat ∧ M.cols = (j1 - j0).toNat ∧
        ∀ i < M.rows, ∀ j < M.cols, M.ref i j = d.ref (i0.toNat + i) (j0.toNat + j)) ∧
    (∀ d b (a e c : Option Int), s.get y = some (.vec d b) → d.len < 2 ^ 64 →
      0 ≤ a.getD 0 → a.getD 0 ≤ e.getD d.len → e.getD d.len ≤ d.len → 0 < c.getD 1 → c.getD 1 < 2 ^ 64 →
      c.getD 1 ∣ e.getD d.len - a.getD 0 →
      ∃ v, Binds s (step s (.slice x y a e c)) x (.vec v none) ∧
        (v.len : Int) * c.getD 1 = e.getD d.len - a.getD 0 ∧
        ∀ k < v.len, v.ref k = d.ref ((a.getD 0).toNat + k * (c.getD 1).toNat)) ∧
    (∀ o, s.get y = some o → Binds s (step s (.name x y)) x o) := by
  refine ⟨?_, ?_, ?_, ?_, ?_, ?_⟩
  · intro d b i hy hb
    refine ⟨fun h => ?_, fun h => ?_⟩
    · have e : toSize i = i.toNat := toSize_nat i h.1 (by omega)
      obtain ⟨v, hv⟩ := Option.isSome_iff_exists.1 (((C33_bounds d).2.2.2.1 i.toNat).2 (by omega))
      obtain ⟨h1, h2⟩ := (C33_views d).2.1 _ v hv
      refine ⟨v, ?_, h1, fun j hj => (h2 j (by omega)).2.2⟩
      simp only [step, look_get hy, bind_ok, asMat, pyRow]
      rw [if_neg (by omega), e, hv]
      exact binds_of s x _
    · simp only [step, look_get hy, bind_ok, asMat, pyRow]
      rw [if_pos (by omega)]; rfl
  · intro d b j hy hb
    refine ⟨fun h => ?_, fun h => ?_⟩
    · have e : toSize j = j.toNat := toSize_nat j h.1 (by omega)
      obtain ⟨v, hv⟩ := Option.isSome_iff_exists.1 (((C33_bounds d).2.2.2.2 j.toNat).2 (by omega))
      obtain ⟨h1, h2⟩ := (C33_views d).2.2.1 _ v hv
      refine ⟨v, ?_, h1, fun i hi => (h2 i (by omega)).2.2⟩
      simp only [step, look_get hy, bind_ok, asMat, pyCol]
      rw [if_neg (by omega), e, hv]
      exact binds_of s x _
    · simp only [step, look_get hy, bind_ok, asMat, pyCol]
      rw [if_pos (by omega)]; rfl
  · intro d b hy
    obtain ⟨h1, h2⟩ := (C33_views d).2.2.2
    refine ⟨diagVec d, ?_, h1, fun i hi => (h2 i hi).2.2⟩
    simp only [step, look_get hy, bind_ok, asMat]
    exact binds_of s x _
  · intro d b i0 i1 j0 j1 hy hr hc h1 h2 h3 h4 h5 h6
    obtain ⟨M, hM⟩ := Option.isSome_iff_exists.1
      (((C33_bounds d).1 i0.toNat j0.toNat i1.toNat j1.toNat).2 (by omega))
    obtain ⟨g1, g2, -, -, -, g3⟩ := (C33_views d).1 _ _ _ _ M hM
    refine ⟨M, ?_, by omega, by omega, fun i hi j hj => (g3 i hi j hj).2.2⟩
    simp only [step, look_get hy, bind_ok, asMat, pyBlock]
    rw [if_neg (by simp), if_neg (by simp), toSize_nat i0 h1 (by omega), toSize_nat i1 (by omega) (by omega),
      toSize_nat j0 h4 (by omega), toSize_nat j1 (by omega) (by omega), hM]
    exact binds_of s x _
  · intro d b a e c hy hl h1 h2 h3 h4 h5 h6
    have ea : (a.map toSize).getD 0 = (a.getD 0).toNat := by
      cases a with
      | none => rfl
      | some a => exact toSize_nat a h1 (by simp only [Option.getD_some] at h2; omega)
    have ee : (e.map toSize).getD d.len = (e.getD d.len).toNat := by
      cases e with
      | none => simp
      | some e => exact toSize_nat e (by simp only [Option.getD_some] at h2; omega)
                    (by simp only [Option.getD_some] at h3; omega)
    have ec : (c.map toSize).getD 1 = (c.getD 1).toNat := by
      cases c with
      | none => rfl
      | some c => exact toSize_nat c (by simp only [Option.getD_some] at h4; omega) h5
    revert h1 h2 h3 h4 h5 h6
    generalize hA : a.getD 0 = A
    generalize hE : e.getD d.len = E
    generalize hC : c.getD 1 = C
    rw [hA] at ea; rw [hE] at ee; rw [hC] at ec
    intro h1 h2 h3 h4 h5 h6
    obtain ⟨v, hv⟩ := Option.isSome_iff_exists.1
      ((C34_bounds d A.toNat E.toNat C.toNat).2 (by omega))
    obtain ⟨-, -, -, g1, -, -⟩ := C34_slice_partial d _ _ _ v hv
    refine ⟨v, ?_, ?_, fun k hk => (g1 k hk).2.2⟩
    · simp only [step, look_get hy, bind_ok, asVec, pySlice]
      rw [ea, ee, ec, hv]
      exact binds_of s x _
    · simp only [Mat.slice] at hv
      rw [if_neg (by omega), if_neg (by omega)] at hv
      injection hv with hv
      subst hv
      obtain ⟨q, hq⟩ := h6
      have hq0 : 0 ≤ q := by
        by_contra hn
        have : C * q < 0 := Int.mul_neg_of_pos_of_neg h4 (by omega)
        omega
      have e1 : E.toNat - A.toNat = C.toNat * q.toNat := by
        have : ((E.toNat - A.toNat : Nat) : Int) = ((C.toNat * q.toNat : Nat) : Int) := by
          push_cast [Int.toNat_of_nonneg h4.le, Int.toNat_of_nonneg hq0]
          rw [← hq]; omega
        exact_mod_cast this
      show (((E.toNat - A.toNat) / C.toNat : Nat) : Int) * C = E - A
      rw [e1, Nat.mul_div_cancel_left _ (by omega : 0 < C.toNat), Int.toNat_of_nonneg hq0, hq, Int.mul_comm]
  · intro o hy
    simp only [step, look_get hy, bind_ok]
    exact binds_of s x o

/-- **C124.** Elements are read and written where the index is in range and refused elsewhere, if the
object is alive. -/
theorem C124_index_partial (s : St K) (hs : Reach s) (x : Nat) :
    (∀ d b (k : Int), s.get x = some (.vec d b) → Alive s (.vec d b) →
      (0 ≤ k ∧ k < d.len → readV s x k = .ok (s.mem (d.ref k.toNat)) ∧
        ∀ a, ∃ s', step s (.setV x k a) = .ok s' ∧ s'.mem = store s.mem (d.ref k.toNat) a ∧
          ∀ z, s'.get z = s.get z) ∧
      (¬ (0 ≤ k ∧ k < d.len) → readV s x k = .exc ∧ ∀ a, step s (.setV x k a) = .exc)) ∧
    (∀ d b (i j : Int), s.get x = some (.mat d b) → Alive s (.mat d b) →
      (0 ≤ i ∧ i < d.rows ∧ 0 ≤ j ∧ j < d.cols → readM s x i j = .ok (s.mem (d.ref i.toNat j.toNat)) ∧
        ∀ a, ∃ s', step s (.setM x i j a) = .ok s' ∧ s'.mem = store s.mem (d.ref i.toNat j.toNat) a ∧
          ∀ z, s'.get z = s.get z) ∧
      (¬ (0 ≤ i ∧ i < d.rows ∧ 0 ≤ j ∧ j < d.cols) →
        readM s x i j = .exc ∧ ∀ a, step s (.setM x i j a) = .exc)) := by
  have hi := hs.inv
  constructor
  · intro d b k hx ha
    have ok := vok_of hi hx ha
    refine ⟨fun h => ?_, fun h => ?_⟩
    · have hl : ∀ a ∈ [d.data + k.toNat * d.inc], s.live a = true := by
        intro a h1
        rw [List.mem_singleton] at h1
        subst h1
        exact ok.live k.toNat (by omega)
      refine ⟨?_, fun a => ⟨St.done { s with mem := store s.mem (d.ref k.toNat) a }, ?_, rfl,
        fun _ => rfl⟩⟩
      · simp only [readV, look_get hx, bind_ok, asVec, vGet]
        rw [if_neg (by omega), use_ok hl]; rfl
      · simp only [step, look_get hx, bind_ok, asVec, vSet]
        rw [if_neg (by omega), use_ok hl]; rfl
    · simp only [readV, step, look_get hx, bind_ok, asVec, vGet, vSet]
      refine ⟨by rw [if_pos (by omega)], fun a => by rw [if_pos (by omega)]; rfl⟩
  · intro d b i j hx ha
    have ok := mok_of hi hx ha
    have er : ∀ p q : Nat, d.data + (p + q * d.ld) = d.ref p q := by
      intro p q; simp only [DMat.ref]; ring
    refine ⟨fun h => ?_, fun h => ?_⟩
    · have hl : ∀ a ∈ [d.ref i.toNat j.toNat], s.live a = true := by
        intro a h1
        rw [List.mem_singleton] at h1
        subst h1
        exact ok.live _ (by omega) _ (by omega)
      refine ⟨?_, fun a => ⟨St.done { s with mem := store s.mem (d.ref i.toNat j.toNat) a }, ?_, rfl,
        fun _ => rfl⟩⟩
      · simp only [readM, look_get hx, bind_ok, asMat, mGet]
        rw [if_neg (by omega), if_neg (by omega), er, use_ok hl]
      · simp only [step, look_get hx, bind_ok, asMat, mSet]
        rw [if_neg (by omega), if_neg (by omega), er, use_ok hl]; rfl
    · simp only [readM, step, look_get hx, bind_ok, asMat, mGet, mSet]
      by_cases h1 : i < 0 ∨ i ≥ d.rows
      · simp only [if_pos h1]; exact ⟨trivial, fun _ => rfl⟩
      · simp only [if_neg h1]
        have h2 : j < 0 ∨ j ≥ d.cols := by omega
        simp only [if_pos h2]
        exact ⟨trivial, fun _ => rfl⟩

/-! ## Storage -/

/-- **C124.** An object that was made by a constructor or an operator is alive as long as it has a
name. -/
theorem C124_owner (s : St K) (hs : Reach s) (x : Nat) (o : Obj) (b : Buf) (hx : s.get x = some o)
    (hb : o.own = some b) : Alive s o := by
  obtain ⟨B, h1, h2, h3⟩ := hs.inv.bufs
  obtain ⟨c, hc, h4, h5⟩ := h3 _ (get_mem hx)
  have e := h5 b hb
  subst e
  intro a ha
  simp only [St.live, Bool.or_eq_true, List.any_eq_true]
  refine Or.inl ⟨_, get_mem hx, ?_⟩
  simp only [hb]
  cases o with
  | vec d _ => obtain ⟨k, hk, rfl⟩ := mem_vAcc.1 ha; exact h4.2 k hk
  | mat d _ => obtain ⟨i, hi, j, hj, rfl⟩ := mem_mAcc.1 ha; exact h4.2 i hi j hj

/-- **C124.** What is in the storage of the object that `x` names is alive after every statement that
does not bind `x` to another object or delete it. -/
theorem C124_keep (s s' : St K) (hs : Reach s) (p : Stmt K) (h : step s p = .ok s') (x : Nat)
    (hp : rebinds s p ≠ some x) (o : Obj) (b : Buf) (hx : s.get x = some o) (hb : o.own = some b) :
    s'.get x = some o ∧ ∀ v : Obj, (∀ a ∈ v.acc, Buf.has b a = true) → Alive s' v := by
  have h1 := (step_str hs.inv h).2 x hp
  rw [hx] at h1
  refine ⟨h1, fun v hv a ha => ?_⟩
  simp only [St.live, Bool.or_eq_true, List.any_eq_true]
  refine Or.inl ⟨_, get_mem h1, ?_⟩
  simp only [hb]
  exact hv a ha

/-- if an object with elements is alive so is all of the array that it is in. -/
theorem live_buf {s : St K} (hi : Inv s) {x : Nat} {o : Obj} (hx : s.get x = some o) (ha : Alive s o)
    (hne : o.acc ≠ []) : ∃ b, Inside b o ∧ ∀ a, Buf.has b a = true → s.live a = true := by
  obtain ⟨B, h1, h2, h3⟩ := hi.bufs
  obtain ⟨c, hc, h4, h5⟩ := h3 _ (get_mem hx)
  refine ⟨c, h4, fun a hca => ?_⟩
  obtain ⟨a0, h0⟩ := List.exists_mem_of_ne_nil _ hne
  have hin : Buf.has c a0 = true := by
    cases o with
    | vec d _ => obtain ⟨k, hk, rfl⟩ := mem_vAcc.1 h0; exact h4.2 k hk
    | mat d _ => obtain ⟨i, hi, j, hj, rfl⟩ := mem_mAcc.1 h0; exact h4.2 i hi j hj
  have hl := ha a0 h0
  simp only [St.live, Bool.or_eq_true, List.any_eq_true, hi.tmp] at hl ⊢
  rcases hl with ⟨p, hp, hpa⟩ | ⟨b, hb, -⟩
  · obtain ⟨e, he, -, h7⟩ := h3 p hp
    split at hpa
    · rename_i b hb
      have := h7 b hb
      subst this
      have := h2 b c he hc a0 hpa hin
      subst this
      exact Or.inl ⟨p, hp, by simp only [hb]; exact hca⟩
    · cases hpa
  · cases hb

/-- the variables a statement uses. -/
def uses : Stmt K → List Nat
  | .vecNew _ _ | .vecList _ _ | .matNew _ _ _ => []
  | .dup _ y | .name _ y | .del y | .rbinNum _ _ _ y | .rbinList _ _ _ y | .neg _ y | .trans _ y
  | .slice _ y _ _ _ | .row _ y _ | .col _ y _ | .diag _ y | .block _ y _ _ _ _ _ _
  | .setV y _ _ | .setM y _ _ _ => [y]
  | .bin _ _ y (.var z) => [y, z]
  | .bin _ _ y _ => [y]
  | .ibin x _ (.var z) => [x, z]
  | .ibin x _ _ => [x]

theorem call_ne {s : St K} {l : List Nat} {m : Option (Mem K)} (h : ∀ a ∈ l, s.live a = true) :
    call s l m ≠ .ub := by
  cases m with
  | none => rw [call_none]; nofun
  | some m => rw [call_ok h]; nofun

theorem bind_ne {α β : Type} {x : Out α} {f : α → Out β} (h : x ≠ .ub) (hf : ∀ a, x = .ok a → f a ≠ .ub) :
    x.bind f ≠ .ub := by
  cases x with
  | ok a => exact hf a rfl
  | exc => nofun
  | abort => nofun
  | ub => exact absurd rfl h

theorem does_ne {s : St K} {r : Out (Obj × St K)} {q : Option (Val K)} (h : Does s r q) : r ≠ .ub := by
  cases q with
  | some v => obtain ⟨o, s', h1, -⟩ := h; rw [h1]; nofun
  | none => rcases h with h | h <;> rw [h] <;> nofun

theorem app_live {s : St K} {l m : List Nat} (h : ∀ a ∈ l, s.live a = true) (g : ∀ a ∈ m, s.live a = true) :
    ∀ a ∈ l ++ m, s.live a = true := fun a ha => (List.mem_append.1 ha).elim (h a) (g a)

theorem incAcc_alive {s : St K} (hi : Inv s) {x : Nat} {d : DMat} {b : Option Buf}
    (hx : s.get x = some (.mat d b)) (ha : Alive s (.mat d b)) : ∀ a ∈ incAcc d, s.live a = true := by
  have ok := mok_of hi hx ha
  intro a h
  rw [incAcc] at h
  split at h
  · rename_i hs
    simp only [List.mem_map, List.mem_range] at h
    obtain ⟨k, hk, rfl⟩ := h
    have hr : 0 < d.rows := by
      rcases Nat.eq_zero_or_pos d.rows with h0 | h0
      · rw [h0] at hk; omega
      · exact h0
    have hm : d.ref 0 0 ∈ mAcc d := mem_mAcc.2 ⟨0, hr, 0, by omega, rfl⟩
    obtain ⟨c, hc, hl⟩ := live_buf hi hx ha (fun e => by
      have : d.ref 0 0 ∈ (Obj.mat d b).acc := hm
      rw [e] at this; cases this)
    apply hl
    have h1 := hc.2 0 hr 0 (by omega)
    have h2 := hc.2 (d.rows - 1) (by omega) (d.cols - 1) (by omega)
    rw [has_iff] at h1 h2 ⊢
    simp only [DMat.ref] at h1 h2
    have h3 : d.rows * (d.cols - 1) ≤ d.ld * (d.cols - 1) := Nat.mul_le_mul_right _ ok.ld
    have h4 : d.rows * d.cols = d.rows * (d.cols - 1) + d.rows := by
      obtain ⟨q, hq⟩ : ∃ q, d.cols = q + 1 := ⟨d.cols - 1, by omega⟩
      rw [hq]; simp [Nat.mul_add]
    omega
  · exact ok.acc a h

/-- **C124.** A statement whose variables name objects that are alive does not use storage that has
been released. -/
theorem C124_safe_partial (s : St K) (hs : Reach s) (p : Stmt K)
    (h : ∀ x ∈ uses p, ∀ o, s.get x = some o → Alive s o) : step s p ≠ .ub := by
  have hi := hs.inv
  have bt : ∀ x (q : Obj × St K), bindTo x q ≠ .ub := fun _ _ => nofun
  have lk : ∀ x, look s x ≠ .ub := by
    intro x; rw [look]; split <;> nofun
  have oa : ∀ {α : Type} (q : Option α), orAbort q ≠ .ub := by
    intro α q; cases q <;> nofun
  have nv : ∀ (x : Nat) (f : Obj → Out (St K)),
      (∀ o, s.get x = some o → (f o) ≠ .ub) → (look s x).bind f ≠ .ub :=
    fun x f hf => bind_ne (lk x) fun o ho => hf o (look_ok ho)
  have am : ∀ (o : Obj) (f : DMat → Out (St K)), (∀ d b, o = .mat d b → f d ≠ .ub) → asMat o f ≠ .ub := by
    intro o f hf
    cases o with
    | vec _ _ => nofun
    | mat d b => exact hf d b rfl
  have av : ∀ (o : Obj) (f : DVec → Out (St K)), (∀ d b, o = .vec d b → f d ≠ .ub) → asVec o f ≠ .ub := by
    intro o f hf
    cases o with
    | mat _ _ => nofun
    | vec d b => exact hf d b rfl
  have er : ∀ w, (∀ z, w = Ref.var z → ∀ o, s.get z = some o → Alive s o) →
      evalRef s w ≠ .ub ∧ ∀ a, evalRef s w = .ok a → ArgOk s a := by
    intro w hw
    cases w with
    | num a => exact ⟨nofun, fun a e => by injection e with e; subst e; trivial⟩
    | list a => exact ⟨nofun, fun a e => by injection e with e; subst e; trivial⟩
    | var z =>
      refine ⟨bind_ne (lk z) fun _ _ => nofun, fun a e => ?_⟩
      obtain ⟨o, h1, h2⟩ := bind_eq_ok e
      injection h2 with h2
      subst h2
      exact objOk_of hi (look_ok h1) (hw z rfl o (look_ok h1))
  cases p with
  | vecNew x n => exact bt _ _
  | matNew x m n => exact bt _ _
  | vecList x l =>
    obtain ⟨s1, h1, -⟩ := listVec_ok s l
    simp only [step, h1, bind_ok]; exact bt _ _
  | dup x y =>
    exact nv y _ fun o ho => bind_ne (does_ne (q := some _) (dup_does (objOk_of hi ho (h y (by simp [uses]) o ho))))
      fun _ _ => bt _ _
  | name x y => exact nv y _ fun o ho => bt _ _
  | del x => exact nv x _ fun o ho => nofun
  | bin x op y w =>
    refine nv y _ fun o ho => ?_
    have hoo := objOk_of hi ho (h y (by cases w <;> simp [uses]) o ho)
    have hw := er w fun z e o hz => h z (by rw [e]; simp [uses]) o hz
    exact bind_ne hw.1 fun a ha => bind_ne (does_ne (binop_does op hoo (hw.2 a ha))) fun _ _ => bt _ _
  | rbinNum x op a y =>
    exact nv y _ fun o ho => bind_ne (does_ne (rbinop_does op (w := .num a)
      (objOk_of hi ho (h y (by simp [uses]) o ho)) nofun)) fun _ _ => bt _ _
  | rbinList x op l y =>
    exact nv y _ fun o ho => bind_ne (does_ne (rbinop_does op (w := .list l)
      (objOk_of hi ho (h y (by simp [uses]) o ho)) nofun)) fun _ _ => bt _ _
  | neg x y =>
    exact nv y _ fun o ho => bind_ne (does_ne (q := some _) (neg_does
      (objOk_of hi ho (h y (by simp [uses]) o ho)))) fun _ _ => bt _ _
  | trans x y =>
    refine nv y _ fun o ho => am _ _ fun d b e => ?_
    subst e
    exact bind_ne (does_ne (q := some _) (newRes_mat (transpose_ok
      (mok_of hi ho (h y (by simp [uses]) _ ho))))) fun _ _ => bt _ _
  | slice x y a b c =>
    refine nv y _ fun o ho => av _ _ fun d b e => ?_
    exact bind_ne (bind_ne (oa _) fun _ _ => nofun) fun _ _ => bt _ _
  | row x y i =>
    refine nv y _ fun o ho => am _ _ fun d b e => bind_ne ?_ fun _ _ => bt _ _
    rw [pyRow]; split
    · nofun
    · exact bind_ne (oa _) fun _ _ => nofun
  | col x y i =>
    refine nv y _ fun o ho => am _ _ fun d b e => bind_ne ?_ fun _ _ => bt _ _
    rw [pyCol]; split
    · nofun
    · exact bind_ne (oa _) fun _ _ => nofun
  | diag x y => exact nv y _ fun o ho => am _ _ fun d b e => bt _ _
  | block x y a b c e f g =>
    refine nv y _ fun o ho => am _ _ fun d b e => bind_ne ?_ fun _ _ => bt _ _
    simp only [pyBlock]; split
    · nofun
    · split
      · nofun
      · split
        · exact bind_ne (oa _) fun _ _ => nofun
        · nofun
  | setV x k a =>
    refine nv x _ fun o ho => av _ _ fun d b e => ?_
    subst e
    have ok := vok_of hi ho (h x (by simp [uses]) _ ho)
    refine bind_ne ?_ fun _ _ => nofun
    rw [vSet]; split
    · nofun
    · rw [use_ok]
      · nofun
      · intro a ha
        rw [List.mem_singleton] at ha
        subst ha
        exact ok.live k.toNat (by omega)
  | setM x i j a =>
    refine nv x _ fun o ho => am _ _ fun d b e => ?_
    subst e
    have ok := mok_of hi ho (h x (by simp [uses]) _ ho)
    refine bind_ne ?_ fun _ _ => nofun
    rw [mSet]; split
    · nofun
    · split
      · nofun
      · rw [use_ok]
        · nofun
        · intro a ha
          rw [List.mem_singleton] at ha
          subst ha
          have := ok.live i.toNat (by omega) j.toNat (by omega)
          rw [DMat.ref] at this
          rwa [show i.toNat + j.toNat * d.ld = d.ld * j.toNat + i.toNat by ring]
  | ibin x op w =>
    refine nv x _ fun o ho => ?_
    have hal := h x (by cases w <;> simp [uses]) o ho
    have hoo := objOk_of hi ho hal
    have hw := er w fun z e o hz => h z (by rw [e]; simp [uses]) o hz
    refine bind_ne hw.1 fun a ha => bind_ne ?_ fun _ _ => bt _ _
    have haa := hw.2 a ha
    cases o with
    | vec d b =>
      have ok : VOk s d := hoo
      match op, a, haa with
      | .sub, a, haa => exact does_ne (vec_does (b := b) .sub ok haa)
      | .add, .num c, _ => exact bind_ne (by simp only [vIadd, increment, vImul, mImul]; exact call_ne ok.acc) fun _ _ => nofun
      | .add, .list l, _ =>
        refine bind_ne ?_ fun _ _ => nofun
        obtain ⟨s1, h1, h2, h3, -⟩ := listVec_ok s l
        rw [vIadd, h1, bind_ok]
        exact call_ne (app_live h3.acc (ok.ext h2).acc)
      | .add, .obj (.vec u _), haa => exact bind_ne (call_ne (app_live (VOk.acc haa) ok.acc)) fun _ _ => nofun
      | .add, .obj (.mat u _), _ => nofun
      | .mul, .num c, _ => exact bind_ne (by simp only [vIadd, increment, vImul, mImul]; exact call_ne ok.acc) fun _ _ => nofun
      | .mul, .list l, _ => nofun
      | .mul, .obj _, _ => nofun
      | .div, .num c, _ =>
        refine bind_ne ?_ fun _ _ => nofun
        rw [vIdiv]; split
        · nofun
        · simp only [vImul, mImul]; exact call_ne ok.acc
      | .div, .list l, _ => nofun
      | .div, .obj _, _ => nofun
    | mat d b =>
      have ok : MOk s d := hoo
      match op, a, haa with
      | .sub, .num c, _ => exact bind_ne (by simp only [mIadd, mIsub]; exact call_ne (incAcc_alive hi ho hal)) fun _ _ => nofun
      | .sub, .list l, _ => nofun
      | .sub, .obj (.vec u _), _ => nofun
      | .sub, .obj (.mat u _), haa => exact bind_ne (call_ne (app_live (MOk.acc haa) ok.acc)) fun _ _ => nofun
      | .add, .num c, _ => exact bind_ne (by simp only [mIadd, mIsub]; exact call_ne (incAcc_alive hi ho hal)) fun _ _ => nofun
      | .add, .list l, _ => nofun
      | .add, .obj (.vec u _), _ => nofun
      | .add, .obj (.mat u _), haa => exact bind_ne (call_ne (app_live (MOk.acc haa) ok.acc)) fun _ _ => nofun
      | .mul, .num c, _ => exact bind_ne (by simp only [vIadd, increment, vImul, mImul]; exact call_ne ok.acc) fun _ _ => nofun
      | .mul, .list l, _ => nofun
      | .mul, .obj _, _ => nofun
      | .div, .num c, _ =>
        refine bind_ne ?_ fun _ _ => nofun
        rw [mIdiv]; split
        · nofun
        · simp only [vImul, mImul]; exact call_ne ok.acc
      | .div, .list l, _ => nofun
      | .div, .obj _, _ => nofun

/-! ## Where the property fails -/

/-- the result of a program and the value of an expression after it. -/
def after {α : Type} (ps : List (Stmt K)) (f : St K → Out α) : Out α := (run init ps).bind f

/-- **C124 is violated**: a view does not keep the storage of its object. `v = DVec([1,2,3])[0:2]; v[0]`,
`v = A.transpose().row_vec(0); v[0]` and, after `y = x[0:2]`, the statement `x -= 1` followed by `y[0]`
all read storage that has been released. -/
theorem C124_violates_dangling :
    after [.vecList 0 [1, 2, 3], .slice 1 0 (some 0) (some 2) none, .del 0]
      (fun s => readV (s : St Rat) 1 0) = .ub ∧
    after [.matNew 0 2 2, .trans 1 0, .row 2 1 0, .del 1] (fun s => readV (s : St Rat) 2 0) = .ub ∧
    after [.vecList 0 [1, 2, 3], .slice 1 0 (some 0) (some 2) none, .ibin 0 .sub (.num 1)]
      (fun s => readV (s : St Rat) 1 0) = .ub := by
  refine ⟨?_, ?_, ?_⟩ <;> decide +kernel

/-- **C124 is violated**: `-=` on a vector makes a new object where `+=` changes the object. After
`y = x` the second name shows the result of `x += 1` and not that of `x -= 1`. -/
theorem C124_violates_isub :
    after [.vecList 0 [5], .name 1 0, .ibin 0 .add (.num 1)] (fun s => readV (s : St Rat) 1 0) = .ok 6 ∧
    after [.vecList 0 [5], .name 1 0, .ibin 0 .sub (.num 1)] (fun s => readV (s : St Rat) 0 0) = .ok 4 ∧
    after [.vecList 0 [5], .name 1 0, .ibin 0 .sub (.num 1)] (fun s => readV (s : St Rat) 1 0) = .ok 5 := by
  refine ⟨?_, ?_, ?_⟩ <;> decide +kernel

/-- **C124 is violated**: for every vector made from a list `x -= a` leaves the other name as it was. -/
theorem C124_violates_isub_all (l : List K) (a : K) (k : Nat) (hk : k < l.length) :
    after [.vecList 0 l, .name 1 0, .ibin 0 .sub (.num a)] (fun s => readV (s : St K) 1 k) = .ok (l.getD k 0) := by
  obtain ⟨s1, h1, h2, h3, h4, h5, h6⟩ := listVec_ok (init : St K) l
  have r1 : run (init : St K) [.vecList 0 l, .name 1 0] =
      .ok ((s1.put 0 (ownVec (nv (init : St K) l.length))).put 1 (ownVec (nv (init : St K) l.length))) := by
    simp only [run, step, h1, bind_ok, bindTo, look, get_put, if_pos]
  have g0 : ∀ x, x = 0 ∨ x = 1 →
      ((s1.put 0 (ownVec (nv (init : St K) l.length))).put 1 (ownVec (nv (init : St K) l.length))).get x =
        some (ownVec (nv (init : St K) l.length)) := by
    rintro x (rfl | rfl) <;> simp [get_put]
  generalize hS : (s1.put 0 (ownVec (nv (init : St K) l.length))).put 1 (ownVec (nv (init : St K) l.length)) = S at r1 g0
  have hm : S.mem = s1.mem := by rw [← hS]; rfl
  have hR : Reach S := ⟨_, r1⟩
  have hal : Alive S (ownVec (nv (init : St K) l.length)) := C124_owner S hR 0 _ _ (g0 0 (Or.inl rfl)) rfl
  obtain ⟨o, S', e1, e2, e3, -⟩ : NewRes S (vSub S (nv (init : St K) l.length) (.num a)) _ :=
    newRes_vec (vOn_inc (-a) (vok_of hR.inv (g0 0 (Or.inl rfl)) hal))
  have r2 : step S (.ibin 0 .sub (.num a)) = .ok (S'.put 0 o) := by
    simp only [step, look_get (g0 0 (Or.inl rfl)), bind_ok, evalRef, ownVec, ibinop]
    rw [e1]; rfl
  have r3 : run (init : St K) [.vecList 0 l, .name 1 0, .ibin 0 .sub (.num a)] = .ok (S'.put 0 o) := by
    have : run (init : St K) [.vecList 0 l, .name 1 0, .ibin 0 .sub (.num a)] =
        (run (init : St K) [.vecList 0 l, .name 1 0]).bind
          fun s => (step s (.ibin 0 .sub (.num a))).bind fun s => .ok s := by
      simp only [run]
      cases step (init : St K) (.vecList 0 l) with
      | ok t => simp only [bind_ok]; cases step t (.name 1 0) <;> rfl
      | exc => rfl
      | abort => rfl
      | ub => rfl
    rw [this, r1, bind_ok, r2]; rfl
  have g1 : (S'.put 0 o).get 1 = some (ownVec (nv (init : St K) l.length)) := by
    rw [get_put, if_neg (by omega)]
    simp only [St.get, e2]
    exact g0 1 (Or.inr rfl)
  have R3 : Reach (S'.put 0 o) := ⟨_, r3⟩
  have hal3 := C124_owner _ R3 1 _ _ g1 rfl
  have hlt : (nv (init : St K) l.length).ref k < S.next :=
    (vok_of hR.inv (g0 0 (Or.inl rfl)) hal).lt k hk
  rw [after, r3, bind_ok]
  rw [(((C124_index_partial _ R3 1).1 _ _ k g1 hal3).1 ⟨by omega, by simpa [nv] using hk⟩).1]
  congr 1
  rw [Int.toNat_natCast]
  show S'.mem _ = _
  rw [e3.1 _ hlt, hm, h6 k hk]

/-- **C124 is violated**: a slice that is not inside the vector, with negative bounds as Python allows
them, or with step zero, and a sum of vectors of different lengths, stop the process instead of raising
an exception. -/
theorem C124_violates_abort :
    run (init : St Rat) [.vecList 0 [1, 2, 3], .slice 1 0 (some 0) (some 5) none] = .abort ∧
    run (init : St Rat) [.vecList 0 [1, 2, 3], .slice 1 0 (some 0) (some (-1)) none] = .abort ∧
    run (init : St Rat) [.vecList 0 [1, 2, 3], .slice 1 0 none none (some 0)] = .abort ∧
    run (init : St Rat) [.vecList 0 [1, 2, 3], .vecList 1 [1, 2], .bin 2 .add 0 (.var 1)] = .abort := by
  refine ⟨?_, ?_, ?_, ?_⟩ <;> rfl

/-- **C124 is violated**: a slice is one element short when the step does not divide its extent:
`DVec([1,2,3])[0:3:2]` has one element, and `[1,2,3][0:3:2]` two. -/
theorem C124_violates_slice :
    after [.vecList 0 [1, 2, 3], .slice 1 0 (some 0) (some 3) (some 2)] (fun s => readV (s : St Rat) 1 0) =
      .ok 1 ∧
    after [.vecList 0 [1, 2, 3], .slice 1 0 (some 0) (some 3) (some 2)] (fun s => readV (s : St Rat) 1 1) =
      .exc := by
  refine ⟨?_, ?_⟩ <;> decide +kernel

/-- **C124 is violated**: blocks with a step of one, or with a bound left out, are refused. -/
theorem C124_violates_block :
    run (init : St Rat) [.matNew 0 3 3, .block 1 0 (some 0) (some 2) (some 1) (some 0) (some 2) none] = .exc ∧
    run (init : St Rat) [.matNew 0 3 3, .block 1 0 none (some 2) none (some 0) (some 2) none] = .exc := by
  refine ⟨?_, ?_⟩ <;> rfl

/-- **C124 is violated**: adding a number to a square block changes an element of the matrix outside the
block and misses one inside. -/
theorem C124_violates_inc :
    after [.matNew 0 3 3, .block 1 0 (some 0) (some 2) none (some 0) (some 2) none, .ibin 1 .add (.num 1)]
      (fun s => readM (s : St Rat) 0 2 0) = .ok 1 ∧
    after [.matNew 0 3 3, .block 1 0 (some 0) (some 2) none (some 0) (some 2) none, .ibin 1 .add (.num 1)]
      (fun s => readM (s : St Rat) 1 1 1) = .ok 0 := by
  refine ⟨?_, ?_⟩ <;> decide +kernel

/-- **C124 is violated**: with a partly overlapping operand the result is not the sum: after
`y = x[1:3]` the statement `y += x[0:2]` adds an element that it has already changed. -/
theorem C124_violates_overlap :
    after [.vecList 0 [1, 10, 100], .slice 1 0 (some 1) (some 3) none, .slice 2 0 (some 0) (some 2) none,
      .ibin 1 .add (.var 2)] (fun s => readV (s : St Rat) 1 1) = .ok 111 ∧
    after [.vecList 0 [1, 10, 100], .slice 1 0 (some 1) (some 3) none, .slice 2 0 (some 0) (some 2) none,
      .bin 3 .add 1 (.var 2)] (fun s => readV (s : St Rat) 3 1) = .ok 110 := by
  refine ⟨?_, ?_⟩ <;> decide +kernel

/-! ## Examples -/

/-- rows of a matrix are views: a write through the row is seen in the matrix, and the sum of the row and a
list is a new vector. -/
example :
    after [.matNew 0 2 3, .row 1 0 1, .setV 1 2 7, .bin 2 .add 1 (.list [1, 1, 1]), .setV 2 2 0]
      (fun s => readM (s : St Rat) 0 1 2) = .ok 7 := by decide +kernel

example :
    after [.vecList 0 [1, 2], .vecList 1 [3, 4], .matNew 2 2 2, .setM 2 0 0 1, .setM 2 0 1 5, .setM 2 1 1 2,
      .bin 3 .mul 2 (.var 1), .bin 3 .sub 3 (.var 0)] (fun s => readV (s : St Rat) 3 0) = .ok 22 := by
  decide +kernel

end Verif.PyMat
