import Verif.Model.PyMat
import Verif.Prop.Mat
import Mathlib.Tactic.FieldSimp

/-! # Lemmas about the vectors and matrices of Python -/

namespace Verif.PyMat

open Verif.Mat

set_option linter.unusedSectionVars false
variable {K : Type} [Field K] [DecidableEq K]

@[simp] theorem bind_ok {α β : Type} (a : α) (f : α → Out β) : (Out.ok a).bind f = f a := rfl
@[simp] theorem bind_exc {α β : Type} (f : α → Out β) : (Out.exc : Out α).bind f = .exc := rfl
@[simp] theorem bind_abort {α β : Type} (f : α → Out β) : (Out.abort : Out α).bind f = .abort := rfl
@[simp] theorem bind_ub {α β : Type} (f : α → Out β) : (Out.ub : Out α).bind f = .ub := rfl

theorem bind_eq_ok {α β : Type} {x : Out α} {f : α → Out β} {b : β} (h : x.bind f = .ok b) :
    ∃ a, x = .ok a ∧ f a = .ok b := by
  cases x <;> simp_all

theorem has_iff (b : Buf) (a : Nat) : Buf.has b a = true ↔ b.1 ≤ a ∧ a < b.1 + b.2 := by
  simp [Buf.has]

/-- `s'` is `s` with more storage and more temporaries. -/
structure Ext (s s' : St K) : Prop where
  env : s'.env = s.env
  le : s.next ≤ s'.next
  mem : ∀ a < s.next, s'.mem a = s.mem a
  live : ∀ a, s.live a = true → s'.live a = true

theorem Ext.refl (s : St K) : Ext s s := ⟨rfl, Nat.le_refl _, fun _ _ => rfl, fun _ h => h⟩

theorem Ext.trans {s t u : St K} (h : Ext s t) (g : Ext t u) : Ext s u :=
  ⟨g.env.trans h.env, h.le.trans g.le, fun a ha => (g.mem a (by have := h.le; omega)).trans (h.mem a ha),
    fun a ha => g.live a (h.live a ha)⟩

/-- a vector that may be used. -/
structure VOk (s : St K) (d : DVec) : Prop where
  inc : 0 < d.inc
  lt : ∀ k < d.len, d.ref k < s.next
  live : ∀ k < d.len, s.live (d.ref k) = true

structure MOk (s : St K) (d : DMat) : Prop where
  ld : d.rows ≤ d.ld
  lt : ∀ i < d.rows, ∀ j < d.cols, d.ref i j < s.next
  live : ∀ i < d.rows, ∀ j < d.cols, s.live (d.ref i j) = true

theorem VOk.ext {s s' : St K} {d : DVec} (h : VOk s d) (e : Ext s s') : VOk s' d :=
  ⟨h.inc, fun k hk => lt_of_lt_of_le (h.lt k hk) e.le, fun k hk => e.live _ (h.live k hk)⟩

theorem MOk.ext {s s' : St K} {d : DMat} (h : MOk s d) (e : Ext s s') : MOk s' d :=
  ⟨h.ld, fun i hi j hj => lt_of_lt_of_le (h.lt i hi j hj) e.le,
    fun i hi j hj => e.live _ (h.live i hi j hj)⟩

theorem mem_vAcc {d : DVec} {a : Nat} : a ∈ vAcc d ↔ ∃ k < d.len, d.ref k = a := by
  simp [vAcc]

theorem mem_mAcc {d : DMat} {a : Nat} : a ∈ mAcc d ↔ ∃ i < d.rows, ∃ j < d.cols, d.ref i j = a := by
  simp only [mAcc, List.mem_flatMap, List.mem_range, List.mem_map]
  constructor
  · rintro ⟨j, hj, i, hi, rfl⟩; exact ⟨i, hi, j, hj, rfl⟩
  · rintro ⟨i, hi, j, hj, rfl⟩; exact ⟨j, hj, i, hi, rfl⟩

theorem VOk.acc {s : St K} {d : DVec} (h : VOk s d) : ∀ a ∈ vAcc d, s.live a = true := by
  intro a ha
  obtain ⟨k, hk, rfl⟩ := mem_vAcc.1 ha
  exact h.live k hk

theorem MOk.acc {s : St K} {d : DMat} (h : MOk s d) : ∀ a ∈ mAcc d, s.live a = true := by
  intro a ha
  obtain ⟨i, hi, j, hj, rfl⟩ := mem_mAcc.1 ha
  exact h.live i hi j hj

theorem use_ok {α : Type} {s : St K} {l : List Nat} {k : Out α} (h : ∀ a ∈ l, s.live a = true) :
    use s l k = k := by
  rw [use, if_pos (List.all_eq_true.2 h)]

theorem call_ok {s : St K} {l : List Nat} {m : Mem K} (h : ∀ a ∈ l, s.live a = true) :
    call s l (some m) = .ok { s with mem := m } := use_ok h

theorem call_none (s : St K) (l : List Nat) : call s l none = .abort := rfl

/-! ## New storage -/

theorem alloc_ext (s : St K) (n : Nat) : Ext s (alloc s n).2 := by
  refine ⟨rfl, by simp [alloc], ?_, ?_⟩
  · intro a ha
    simp only [alloc]
    rw [if_neg]
    simp [has_iff]
    omega
  · intro a ha
    simp only [alloc, St.live, List.any_cons, Bool.or_eq_true] at ha ⊢
    tauto

theorem alloc_live (s : St K) (n a : Nat) (h1 : s.next ≤ a) (h2 : a < s.next + n) :
    (alloc s n).2.live a = true ∧ (alloc s n).2.mem a = 0 := by
  have hb : Buf.has (s.next, n) a = true := (has_iff _ _).2 ⟨h1, h2⟩
  constructor
  · simp [alloc, St.live, hb]
  · simp only [alloc]; rw [if_pos hb]

/-- the vector and the matrix that `newVec` and `newMat` make. -/
def nv (s : St K) (n : Nat) : DVec := ⟨n, s.next, 1⟩
def nm (s : St K) (m n : Nat) : DMat := ⟨m, n, s.next, m⟩

theorem nv_ref (s : St K) (n k : Nat) : (nv s n).ref k = s.next + k := by simp [nv, DVec.ref]

theorem nm_ref (s : St K) (m n i j : Nat) : (nm s m n).ref i j = s.next + (m * j + i) := by
  simp [nm, DMat.ref]

theorem idx_lt {m n i j : Nat} (hi : i < m) (hj : j < n) : m * j + i < m * n := by
  have : m * (j + 1) ≤ m * n := Nat.mul_le_mul_left _ hj
  rw [Nat.mul_add] at this
  omega

/-- after a chain of temporaries: a vector owned by a temporary. -/
structure NewV (s s' : St K) (v : DVec) : Prop where
  inc : v.inc = 1
  ge : s.next ≤ v.data
  le : v.data + v.len ≤ s'.next

structure NewM (s s' : St K) (v : DMat) : Prop where
  ld : v.ld = v.rows
  ge : s.next ≤ v.data
  le : v.data + v.rows * v.cols ≤ s'.next

theorem NewV.ref_ge {s s' : St K} {v : DVec} (h : NewV s s' v) (k : Nat) : s.next ≤ v.ref k := by
  have := h.ge; simp only [DVec.ref]; omega

theorem NewM.ref_ge {s s' : St K} {v : DMat} (h : NewM s s' v) (i j : Nat) : s.next ≤ v.ref i j := by
  have := h.ge; simp only [DMat.ref]; omega

theorem newVec_eq (s : St K) (n : Nat) : newVec s n = (nv s n, (alloc s n).2) := rfl
theorem newMat_eq (s : St K) (m n : Nat) : newMat s m n = (nm s m n, (alloc s (m * n)).2) := rfl

theorem newVec_ok (s : St K) (n : Nat) :
    VOk (alloc s n).2 (nv s n) ∧ NewV s (alloc s n).2 (nv s n) ∧
      ∀ k < n, (alloc s n).2.mem ((nv s n).ref k) = 0 := by
  refine ⟨⟨by simp [nv], ?_, ?_⟩, ⟨rfl, le_refl _, by simp [nv, alloc]⟩, ?_⟩
  · intro k hk
    rw [nv_ref]; simp only [alloc]; simp [nv] at hk; omega
  · intro k hk
    rw [nv_ref]; exact (alloc_live s n _ (by omega) (by simp [nv] at hk; omega)).1
  · intro k hk
    rw [nv_ref]; exact (alloc_live s n _ (by omega) (by omega)).2

theorem newMat_ok (s : St K) (m n : Nat) :
    MOk (alloc s (m * n)).2 (nm s m n) ∧ NewM s (alloc s (m * n)).2 (nm s m n) ∧
      ∀ i < m, ∀ j < n, (alloc s (m * n)).2.mem ((nm s m n).ref i j) = 0 := by
  refine ⟨⟨by simp [nm], ?_, ?_⟩, ⟨rfl, le_refl _, by simp [nm, alloc]⟩, ?_⟩
  · intro i hi j hj
    rw [nm_ref]; simp only [nm] at hi hj; have := idx_lt hi hj; simp only [alloc]; omega
  · intro i hi j hj
    rw [nm_ref]; simp only [nm] at hi hj; have := idx_lt hi hj
    exact (alloc_live s _ _ (by omega) (by omega)).1
  · intro i hi j hj
    rw [nm_ref]; have := idx_lt hi hj
    exact (alloc_live s _ _ (by omega) (by omega)).2

/-! ## Writes to new storage -/

theorem ext_vwrite {s s1 : St K} {v : DVec} {m : Mem K} {f : Nat → K} (e : Ext s s1)
    (n : NewV s s1 v) (w : VecWrite v s1.mem m f) : Ext s { s1 with mem := m } :=
  ⟨e.env, e.le, fun a ha => (w.2 a fun k _ hk => by have := n.ref_ge k; omega).trans (e.mem a ha), e.live⟩

theorem ext_mwrite {s s1 : St K} {v : DMat} {m : Mem K} {f : Nat → Nat → K} (e : Ext s s1)
    (n : NewM s s1 v) (w : MatWrite v s1.mem m f) : Ext s { s1 with mem := m } :=
  ⟨e.env, e.le, fun a ha => (w.2 a fun i _ j _ hk => by have := n.ref_ge i j; omega).trans (e.mem a ha),
    e.live⟩

theorem VOk.mem {s : St K} {d : DVec} (h : VOk s d) (m : Mem K) : VOk { s with mem := m } d :=
  ⟨h.inc, h.lt, h.live⟩
theorem MOk.mem {s : St K} {d : DMat} (h : MOk s d) (m : Mem K) : MOk { s with mem := m } d :=
  ⟨h.ld, h.lt, h.live⟩

theorem apart_new {s s1 : St K} {d v : DVec} (h : VOk s d) (n : NewV s s1 v) :
    ∀ k < d.len, ∀ l < v.len, d.ref k ≠ v.ref l := fun k hk l _ e => by
  have h1 := h.lt k hk; have h2 := n.ref_ge l; omega

theorem mapart_new {s s1 : St K} {d v : DMat} (h : MOk s d) (n : NewM s s1 v) : MatDisjoint d v :=
  fun i hi j hj i' _ j' _ e => by
    have h1 := h.lt i hi j hj; have h2 := n.ref_ge i' j'; omega

/-! ## Copies -/

theorem dupVec_ok {s : St K} {d : DVec} (h : VOk s d) :
    ∃ s1, dupVec s d = .ok (nv s d.len, s1) ∧ Ext s s1 ∧ VOk s1 (nv s d.len) ∧ NewV s s1 (nv s d.len) ∧
      s1.next = s.next + d.len ∧ ∀ k < d.len, s1.mem ((nv s d.len).ref k) = s.mem (d.ref k) := by
  obtain ⟨h1, h2, -⟩ := newVec_ok s d.len
  have he := alloc_ext s d.len
  have hd := h.ext he
  obtain ⟨m1, -, hm, -, hw, -⟩ := (C33_vector2 d (nv s d.len) h1.inc
    (fun k hk l hl e => absurd e (apart_new h h2 k hk l hl)) (0 : K) (alloc s d.len).2.mem).2 rfl
  refine ⟨{ (alloc s d.len).2 with mem := m1 }, ?_, ext_vwrite he h2 hw, h1.mem _,
    ⟨h2.inc, h2.ge, h2.le⟩, rfl, ?_⟩
  · rw [dupVec, newVec_eq]
    simp only [vCopyFrom]
    rw [if_neg (by simp [nv]), hm, call_ok]
    · rfl
    · intro a ha
      rcases List.mem_append.1 ha with ha | ha
      · exact hd.acc a ha
      · exact h1.acc a ha
  · intro k hk
    refine (hw.1 k hk).trans ?_
    beta_reduce
    rw [he.mem _ (h.lt k hk)]

theorem dupMat_ok {s : St K} {d : DMat} (h : MOk s d) :
    ∃ s1, dupMat s d = .ok (nm s d.rows d.cols, s1) ∧ Ext s s1 ∧ MOk s1 (nm s d.rows d.cols) ∧
      NewM s s1 (nm s d.rows d.cols) ∧ s1.next = s.next + d.rows * d.cols ∧
      ∀ i < d.rows, ∀ j < d.cols, s1.mem ((nm s d.rows d.cols).ref i j) = s.mem (d.ref i j) := by
  obtain ⟨h1, h2, -⟩ := newMat_ok s d.rows d.cols
  have he := alloc_ext s (d.rows * d.cols)
  have hd := h.ext he
  obtain ⟨m1, -, hm, -, hw, -⟩ := (C33_matrix2 d (nm s d.rows d.cols) h.ld h1.ld
    (fun i hi j hj i' hi' j' hj' e => absurd e (mapart_new h h2 i hi j hj i' hi' j' hj')) (0 : K)
    (alloc s (d.rows * d.cols)).2.mem).2 rfl rfl
  refine ⟨{ (alloc s (d.rows * d.cols)).2 with mem := m1 }, ?_, ext_mwrite he h2 hw, h1.mem _,
    ⟨h2.ld, h2.ge, h2.le⟩, rfl, ?_⟩
  · rw [dupMat, newMat_eq]
    simp only [mCopyFrom]
    rw [if_neg (by simp [nm]), hm, call_ok]
    · rfl
    · intro a ha
      rcases List.mem_append.1 ha with ha | ha
      · exact hd.acc a ha
      · exact h1.acc a ha
  · intro i hi j hj
    refine (hw.1 i hi j hj).trans ?_
    beta_reduce
    rw [he.mem _ (h.lt i hi j hj)]

theorem fill_write (d : DVec) (hd : 0 < d.inc) (l : List K) (m : Mem K) :
    VecWrite d m (fill d l m) (fun k => l.getD k 0) :=
  forN_vec hd (fun k _ => l.getD k 0) (fun _ _ _ _ _ => rfl) m

theorem listVec_ok (s : St K) (l : List K) :
    ∃ s1, listVec s l = .ok (nv s l.length, s1) ∧ Ext s s1 ∧ VOk s1 (nv s l.length) ∧
      NewV s s1 (nv s l.length) ∧ s1.next = s.next + l.length ∧
      ∀ k < l.length, s1.mem ((nv s l.length).ref k) = l.getD k 0 := by
  obtain ⟨h1, h2, -⟩ := newVec_ok s l.length
  have he := alloc_ext s l.length
  have hw := fill_write (nv s l.length) h1.inc l (alloc s l.length).2.mem
  refine ⟨{ (alloc s l.length).2 with mem := _ }, ?_, ext_vwrite he h2 hw, h1.mem _,
    ⟨h2.inc, h2.ge, h2.le⟩, rfl, hw.1⟩
  rw [listVec, newVec_eq]
  simp only [vCopyList]
  rw [if_neg (by simp [nv]), use_ok h1.acc]
  rfl

/-! ## Operators in place -/

/-- a call that writes `f` to the elements of `d`. -/
def VAct (s : St K) (r : Out (St K)) (d : DVec) (f : Nat → K) : Prop :=
  ∃ m, r = .ok { s with mem := m } ∧ VecWrite d s.mem m f

def MAct (s : St K) (r : Out (St K)) (d : DMat) (f : Nat → Nat → K) : Prop :=
  ∃ m, r = .ok { s with mem := m } ∧ MatWrite d s.mem m f

theorem axpy_ok {s : St K} {x y : DVec} (a : K) (hx : VOk s x) (hy : VOk s y) (hl : x.len = y.len)
    (ha : VecApart x y) :
    VAct s (axpy s a x y) y (fun k => a * s.mem (x.ref k) + s.mem (y.ref k)) := by
  obtain ⟨-, m2, -, hm, -, hw⟩ := (C33_vector2 x y hy.inc ha a s.mem).2 hl
  refine ⟨m2, ?_, hw⟩
  rw [axpy, hm, call_ok]
  intro b hb
  rcases List.mem_append.1 hb with hb | hb
  · exact hx.acc b hb
  · exact hy.acc b hb

theorem axpy_len {s : St K} {x y : DVec} (a : K) (hl : x.len ≠ y.len) : axpy s a x y = .abort := by
  rw [axpy, vaxpy, if_pos hl]; rfl

theorem increment_ok {s : St K} {d : DVec} (a : K) (h : VOk s d) :
    VAct s (increment s d a) d (fun k => s.mem (d.ref k) + a) :=
  ⟨_, call_ok h.acc, (C33_vector d h.inc a s.mem).2.2.2⟩

theorem vImul_ok {s : St K} {d : DVec} (a : K) (h : VOk s d) :
    VAct s (vImul s d (.num a)) d (fun k => a * s.mem (d.ref k)) :=
  ⟨_, call_ok h.acc, (C33_vector d h.inc a s.mem).2.2.1⟩

theorem vIdiv_ok {s : St K} {d : DVec} {a : K} (ha : a ≠ 0) (h : VOk s d) :
    VAct s (vIdiv s d (.num a)) d (fun k => 1 / a * s.mem (d.ref k)) := by
  rw [vIdiv, if_neg ha]; exact vImul_ok _ h

theorem mImul_ok {s : St K} {d : DMat} (a : K) (h : MOk s d) :
    MAct s (mImul s d (.num a)) d (fun i j => a * s.mem (d.ref i j)) :=
  ⟨_, call_ok h.acc, (C33_matrix d h.ld a 0 s.mem).2.2⟩

theorem mIdiv_ok {s : St K} {d : DMat} {a : K} (ha : a ≠ 0) (h : MOk s d) :
    MAct s (mIdiv s d (.num a)) d (fun i j => 1 / a * s.mem (d.ref i j)) := by
  rw [mIdiv, if_neg ha]; exact mImul_ok _ h

theorem incAcc_live {s : St K} {d : DMat} (h : MOk s d) (hc : d.rows ≠ d.cols ∨ d.ld = d.rows) :
    ∀ a ∈ incAcc d, s.live a = true := by
  intro a ha
  rw [incAcc] at ha
  split at ha
  · rename_i hs
    have hld : d.ld = d.rows := by tauto
    simp only [List.mem_map, List.mem_range] at ha
    obtain ⟨k, hk, rfl⟩ := ha
    have hr : 0 < d.rows := by
      rcases Nat.eq_zero_or_pos d.rows with h0 | h0
      · rw [h0] at hk; omega
      · exact h0
    have h1 : k % d.rows < d.rows := Nat.mod_lt _ hr
    have h2 : k / d.rows < d.cols := by rw [Nat.div_lt_iff_lt_mul hr]; rw [Nat.mul_comm] at hk; exact hk
    have e : d.data + k = d.ref (k % d.rows) (k / d.rows) := by
      simp only [DMat.ref, hld]; rw [Nat.div_add_mod]
    rw [e]
    exact h.live _ h1 _ h2
  · exact h.acc a ha

theorem minc_ok {s : St K} {d : DMat} (a : K) (h : MOk s d) (hc : d.rows ≠ d.cols ∨ d.ld = d.rows) :
    MAct s (call s (incAcc d) (some (minc d a s.mem))) d (fun i j => s.mem (d.ref i j) + a) :=
  ⟨_, call_ok (incAcc_live h hc), C33_inc_partial d h.ld hc a s.mem⟩

theorem maxpy_ok {s : St K} {x y : DMat} (a : K) (hx : MOk s x) (hy : MOk s y) (h1 : x.rows = y.rows)
    (h2 : x.cols = y.cols) (ha : MatApart x y) :
    MAct s (call s (mAcc x ++ mAcc y) (maxpy a x y s.mem)) y
      (fun i j => a * s.mem (x.ref i j) + s.mem (y.ref i j)) := by
  obtain ⟨-, m2, -, hm, -, hw⟩ := (C33_matrix2 x y hx.ld hy.ld ha a s.mem).2 h1 h2
  refine ⟨m2, ?_, hw⟩
  rw [hm, call_ok]
  intro b hb
  rcases List.mem_append.1 hb with hb | hb
  · exact hx.acc b hb
  · exact hy.acc b hb

theorem maxpy_len {s : St K} {x y : DMat} (a : K) (h : ¬ (x.rows = y.rows ∧ x.cols = y.cols)) (l : List Nat) :
    call s l (maxpy a x y s.mem) = .abort := by
  rw [maxpy, if_pos (by tauto)]; rfl

/-! ## Results that are new objects -/

/-- a new vector whose elements are `f`. -/
def NewVec (s : St K) (r : Out (Obj × St K)) (n : Nat) (f : Nat → K) : Prop :=
  ∃ v s', r = .ok (ownVec v, s') ∧ Ext s s' ∧ NewV s s' v ∧ VOk s' v ∧ v.len = n ∧
    ∀ k < n, s'.mem (v.ref k) = f k

def NewMat (s : St K) (r : Out (Obj × St K)) (m n : Nat) (f : Nat → Nat → K) : Prop :=
  ∃ v s', r = .ok (ownMat v, s') ∧ Ext s s' ∧ NewM s s' v ∧ MOk s' v ∧ v.rows = m ∧ v.cols = n ∧
    ∀ i < m, ∀ j < n, s'.mem (v.ref i j) = f i j

theorem NewVec.congr {s : St K} {r : Out (Obj × St K)} {n : Nat} {f g : Nat → K} (h : NewVec s r n f)
    (e : ∀ k < n, f k = g k) : NewVec s r n g := by
  obtain ⟨v, s', h1, h2, h3, h4, h5, h6⟩ := h
  exact ⟨v, s', h1, h2, h3, h4, h5, fun k hk => (h6 k hk).trans (e k hk)⟩

theorem NewMat.congr {s : St K} {r : Out (Obj × St K)} {m n : Nat} {f g : Nat → Nat → K}
    (h : NewMat s r m n f) (e : ∀ i < m, ∀ j < n, f i j = g i j) : NewMat s r m n g := by
  obtain ⟨v, s', h1, h2, h3, h4, h5, h6, h7⟩ := h
  exact ⟨v, s', h1, h2, h3, h4, h5, h6, fun i hi j hj => (h7 i hi j hj).trans (e i hi j hj)⟩

theorem NewVec.ext {s s1 : St K} {r : Out (Obj × St K)} {n : Nat} {f : Nat → K} (e : Ext s s1)
    (h : NewVec s1 r n f) : NewVec s r n f := by
  obtain ⟨v, s', h1, h2, h3, h4, h5, h6⟩ := h
  exact ⟨v, s', h1, e.trans h2, ⟨h3.inc, e.le.trans h3.ge, h3.le⟩, h4, h5, h6⟩

theorem vOn_ok {s : St K} {d : DVec} (h : VOk s d) (F : St K → DVec → Out (St K)) (g : Nat → K)
    (hf : ∀ s1, Ext s s1 → VOk s1 (nv s d.len) → NewV s s1 (nv s d.len) →
      (∀ k < d.len, s1.mem ((nv s d.len).ref k) = s.mem (d.ref k)) →
      VAct s1 (F s1 (nv s d.len)) (nv s d.len) g) :
    NewVec s (vOn s d F) d.len g := by
  obtain ⟨s1, h1, h2, h3, h4, -, h6⟩ := dupVec_ok h
  obtain ⟨m, h7, h8⟩ := hf s1 h2 h3 h4 h6
  refine ⟨nv s d.len, { s1 with mem := m }, ?_, ext_vwrite h2 h4 h8, ⟨h4.inc, h4.ge, h4.le⟩, h3.mem _,
    rfl, h8.1⟩
  rw [vOn, h1, bind_ok]
  simp only [h7, bind_ok]

theorem mOn_ok {s : St K} {d : DMat} (h : MOk s d) (F : St K → DMat → Out (St K)) (g : Nat → Nat → K)
    (hf : ∀ s1, Ext s s1 → MOk s1 (nm s d.rows d.cols) → NewM s s1 (nm s d.rows d.cols) →
      (∀ i < d.rows, ∀ j < d.cols, s1.mem ((nm s d.rows d.cols).ref i j) = s.mem (d.ref i j)) →
      MAct s1 (F s1 (nm s d.rows d.cols)) (nm s d.rows d.cols) g) :
    NewMat s (mOn s d F) d.rows d.cols g := by
  obtain ⟨s1, h1, h2, h3, h4, -, h6⟩ := dupMat_ok h
  obtain ⟨m, h7, h8⟩ := hf s1 h2 h3 h4 h6
  refine ⟨nm s d.rows d.cols, { s1 with mem := m }, ?_, ext_mwrite h2 h4 h8, ⟨h4.ld, h4.ge, h4.le⟩,
    h3.mem _, rfl, rfl, h8.1⟩
  rw [mOn, h1, bind_ok]
  simp only [h7, bind_ok]

theorem vact_congr {s : St K} {r : Out (St K)} {d : DVec} {f g : Nat → K} (h : VAct s r d f)
    (e : ∀ k < d.len, f k = g k) : VAct s r d g := by
  obtain ⟨m, h1, h2, h3⟩ := h
  exact ⟨m, h1, fun k hk => (h2 k hk).trans (e k hk), h3⟩

theorem mact_congr {s : St K} {r : Out (St K)} {d : DMat} {f g : Nat → Nat → K} (h : MAct s r d f)
    (e : ∀ i < d.rows, ∀ j < d.cols, f i j = g i j) : MAct s r d g := by
  obtain ⟨m, h1, h2, h3⟩ := h
  exact ⟨m, h1, fun i hi j hj => (h2 i hi j hj).trans (e i hi j hj), h3⟩

/-- a step of `vOn` with a vector of the old state as operand. -/
theorem vOn_axpy {s : St K} {d w : DVec} (a : K) (h : VOk s d) (hw : VOk s w) (hl : w.len = d.len) :
    NewVec s (vOn s d fun s1 v => axpy s1 a w v) d.len
      (fun k => a * s.mem (w.ref k) + s.mem (d.ref k)) := by
  refine vOn_ok h _ _ fun s1 e o n c => ?_
  refine vact_congr (axpy_ok a (hw.ext e) o hl
    (fun k hk l hl' he => absurd he (apart_new hw n k hk l hl'))) fun k hk => ?_
  rw [c k hk, e.mem _ (hw.lt k (by rw [hl]; exact hk))]

theorem vOn_axpy_len {s : St K} {d w : DVec} (a : K) (h : VOk s d) (hl : w.len ≠ d.len) :
    (vOn s d fun s1 v => axpy s1 a w v) = .abort := by
  obtain ⟨s1, h1, -⟩ := dupVec_ok h
  rw [vOn, h1, bind_ok]
  simp only []
  rw [axpy_len a (by simpa [nv] using hl)]
  rfl

theorem vOn_exc {s : St K} {d : DVec} (h : VOk s d) {F : St K → DVec → Out (St K)}
    (hf : ∀ s1 v, F s1 v = .exc) : vOn s d F = .exc := by
  obtain ⟨s1, h1, -⟩ := dupVec_ok h
  rw [vOn, h1, bind_ok]
  simp only [hf, bind_exc]

theorem mOn_exc {s : St K} {d : DMat} (h : MOk s d) {F : St K → DMat → Out (St K)}
    (hf : ∀ s1 v, F s1 v = .exc) : mOn s d F = .exc := by
  obtain ⟨s1, h1, -⟩ := dupMat_ok h
  rw [mOn, h1, bind_ok]
  simp only [hf, bind_exc]

theorem vOn_inc {s : St K} {d : DVec} (a : K) (h : VOk s d) :
    NewVec s (vOn s d fun s1 v => increment s1 v a) d.len (fun k => s.mem (d.ref k) + a) :=
  vOn_ok h _ _ fun s1 _ o _ c => vact_congr (increment_ok a o) fun k hk => by rw [c k hk]

theorem vOn_mul {s : St K} {d : DVec} (a : K) (h : VOk s d) :
    NewVec s (vOn s d fun s1 v => vImul s1 v (.num a)) d.len (fun k => a * s.mem (d.ref k)) :=
  vOn_ok h _ _ fun s1 _ o _ c => vact_congr (vImul_ok a o) fun k hk => by rw [c k hk]

theorem vOn_div {s : St K} {d : DVec} {a : K} (ha : a ≠ 0) (h : VOk s d) :
    NewVec s (vOn s d fun s1 v => vIdiv s1 v (.num a)) d.len (fun k => s.mem (d.ref k) / a) :=
  vOn_ok h _ _ fun s1 _ o _ c => vact_congr (vIdiv_ok ha o) fun k hk => by
    rw [c k hk]; field_simp

/-- two steps in place. -/
theorem vact_bind {s : St K} {r : Out (St K)} {d : DVec} {f g : Nat → K} (h : VAct s r d f)
    {G : St K → Out (St K)}
    (hg : ∀ m, (∀ k < d.len, m (d.ref k) = f k) → VAct { s with mem := m } (G { s with mem := m }) d g) :
    VAct s (r.bind G) d g := by
  obtain ⟨m, h1, h2, h3⟩ := h
  obtain ⟨m', h4, h5, h6⟩ := hg m h2
  exact ⟨m', by rw [h1, bind_ok, h4], h5, fun a ha => (h6 a ha).trans (h3 a ha)⟩

theorem mact_bind {s : St K} {r : Out (St K)} {d : DMat} {f g : Nat → Nat → K} (h : MAct s r d f)
    {G : St K → Out (St K)}
    (hg : ∀ m, (∀ i < d.rows, ∀ j < d.cols, m (d.ref i j) = f i j) →
      MAct { s with mem := m } (G { s with mem := m }) d g) :
    MAct s (r.bind G) d g := by
  obtain ⟨m, h1, h2, h3⟩ := h
  obtain ⟨m', h4, h5, h6⟩ := hg m h2
  exact ⟨m', by rw [h1, bind_ok, h4], h5, fun a ha => (h6 a ha).trans (h3 a ha)⟩

theorem vRsub_num_ok {s : St K} {d : DVec} (a : K) (h : VOk s d) :
    NewVec s (vRsub s d (.num a)) d.len (fun k => a - s.mem (d.ref k)) := by
  rw [vRsub]
  refine vOn_ok h _ _ fun s1 _ o _ c => ?_
  refine vact_bind (vImul_ok (-1) o) fun m hm => ?_
  refine vact_congr (increment_ok a (o.mem m)) fun k hk => ?_
  show m _ + a = _
  rw [hm k hk, c k hk]; ring

theorem vRsub_list_ok {s : St K} {d : DVec} (l : List K) (h : VOk s d) (hl : l.length = d.len) :
    NewVec s (vRsub s d (.list l)) l.length (fun k => l.getD k 0 - s.mem (d.ref k)) := by
  obtain ⟨s1, h1, h2, h3, h4, -, h6⟩ := listVec_ok s l
  obtain ⟨m, h7, h8⟩ := axpy_ok (-1) (h.ext h2) h3 (by simpa [nv] using hl.symm)
    (fun k hk j hj he => absurd he (apart_new h h4 k hk j hj))
  refine ⟨nv s l.length, { s1 with mem := m }, ?_, ext_vwrite h2 h4 h8, ⟨h4.inc, h4.ge, h4.le⟩, h3.mem _,
    rfl, ?_⟩
  · rw [vRsub, h1, bind_ok]
    simp only [h7, bind_ok]
  · intro k hk
    refine (h8.1 k hk).trans ?_
    beta_reduce
    rw [h6 k hk, h2.mem _ (h.lt k (by omega))]; ring

theorem vRsub_list_len {s : St K} {d : DVec} (l : List K) (hl : l.length ≠ d.len) :
    vRsub s d (.list l) = .abort := by
  obtain ⟨s1, h1, -⟩ := listVec_ok s l
  rw [vRsub, h1, bind_ok]
  simp only []
  rw [axpy_len _ (by simpa [nv] using hl.symm)]
  rfl

theorem mOn_mul {s : St K} {d : DMat} (a : K) (h : MOk s d) :
    NewMat s (mOn s d fun s1 v => mImul s1 v (.num a)) d.rows d.cols (fun i j => a * s.mem (d.ref i j)) :=
  mOn_ok h _ _ fun s1 _ o _ c => mact_congr (mImul_ok a o) fun i hi j hj => by rw [c i hi j hj]

theorem mOn_div {s : St K} {d : DMat} {a : K} (ha : a ≠ 0) (h : MOk s d) :
    NewMat s (mOn s d fun s1 v => mIdiv s1 v (.num a)) d.rows d.cols (fun i j => s.mem (d.ref i j) / a) :=
  mOn_ok h _ _ fun s1 _ o _ c => mact_congr (mIdiv_ok ha o) fun i hi j hj => by
    rw [c i hi j hj]; field_simp

theorem mOn_inc {s : St K} {d : DMat} (a : K) (h : MOk s d) :
    NewMat s (mOn s d fun s1 v => call s1 (incAcc v) (some (minc v a s1.mem))) d.rows d.cols
      (fun i j => s.mem (d.ref i j) + a) :=
  mOn_ok h _ _ fun s1 _ o _ c => mact_congr (minc_ok a o (Or.inr rfl)) fun i hi j hj => by
    rw [c i hi j hj]

theorem mOn_axpy {s : St K} {d w : DMat} (a : K) (h : MOk s d) (hw : MOk s w) (h1 : w.rows = d.rows)
    (h2 : w.cols = d.cols) :
    NewMat s (mOn s d fun s1 v => call s1 (mAcc w ++ mAcc v) (maxpy a w v s1.mem)) d.rows d.cols
      (fun i j => a * s.mem (w.ref i j) + s.mem (d.ref i j)) := by
  refine mOn_ok h _ _ fun s1 e o n c => ?_
  refine mact_congr (maxpy_ok a (hw.ext e) o h1 h2
    (fun i hi j hj i' hi' j' hj' he => absurd he (mapart_new hw n i hi j hj i' hi' j' hj')))
    fun i hi j hj => ?_
  rw [c i hi j hj, e.mem _ (hw.lt i (by rw [h1]; exact hi) j (by rw [h2]; exact hj))]

theorem mOn_axpy_len {s : St K} {d w : DMat} (a : K) (h : MOk s d)
    (hn : ¬ (w.rows = d.rows ∧ w.cols = d.cols)) :
    (mOn s d fun s1 v => call s1 (mAcc w ++ mAcc v) (maxpy a w v s1.mem)) = .abort := by
  obtain ⟨s1, h1, -⟩ := dupMat_ok h
  rw [mOn, h1, bind_ok]
  simp only []
  rw [maxpy_len a (by simpa [nm] using hn)]
  rfl

theorem mRsub_ok {s : St K} {d : DMat} (a : K) (h : MOk s d) :
    NewMat s (mRsub s d (.num a)) d.rows d.cols (fun i j => a - s.mem (d.ref i j)) := by
  rw [mRsub]
  refine mOn_ok h _ _ fun s1 _ o _ c => ?_
  refine mact_bind (mImul_ok (-1) o) fun m hm => ?_
  refine mact_congr (minc_ok a (o.mem m) (Or.inr rfl)) fun i hi j hj => ?_
  show m _ + a = _
  rw [hm i hi j hj, c i hi j hj]; ring

/-! ## Products and the transpose -/

theorem mulVec_ok {s : St K} {d : DMat} {x : DVec} (hd : MOk s d) (hx : VOk s x) (hl : d.cols = x.len) :
    NewVec s (mulVec s d x) d.rows
      (fun i => ∑ k ∈ Finset.range x.len, s.mem (d.ref i k) * s.mem (x.ref k)) := by
  obtain ⟨h1, h2, h0⟩ := newVec_ok s d.rows
  have he := alloc_ext s d.rows
  obtain ⟨hi, hw⟩ := C35_gemv false (1 : K) 0 d x (nv s d.rows) (alloc s d.rows).2.mem
  obtain ⟨m, hm⟩ := Option.isSome_iff_exists.1 (hi.2 ⟨by simpa [DMat.opCols] using hl, by simp [DMat.opRows, nv]⟩)
  have hw := hw h1.inc (fun i hi j hj k hk e => by
    have h3 := hd.lt i hi j hj; have h4 := h2.ref_ge k; omega)
    (fun k hk l hl' => apart_new hx h2 k hk l hl') m hm
  refine ⟨nv s d.rows, { (alloc s d.rows).2 with mem := m }, ?_, ext_vwrite he h2 hw,
    ⟨h2.inc, h2.ge, h2.le⟩, h1.mem _, rfl, ?_⟩
  · rw [mulVec, newVec_eq]
    simp only [pyGemv]
    rw [if_neg (by simp [nv]), if_neg (by simpa using hl), hm, call_ok]
    · rfl
    · intro a ha
      rcases List.mem_append.1 ha with ha | ha
      · rcases List.mem_append.1 ha with ha | ha
        · exact (hd.ext he).acc a ha
        · exact (hx.ext he).acc a ha
      · exact h1.acc a ha
  · intro i hi
    refine (hw.1 i hi).trans ?_
    simp only [one_mul, zero_mul, add_zero, DMat.op, Bool.false_eq_true, if_false]
    refine Finset.sum_congr rfl fun k hk => ?_
    have hk := Finset.mem_range.1 hk
    rw [he.mem _ (hd.lt i hi k (by omega)), he.mem _ (hx.lt k hk)]

theorem mulVec_exc {s : St K} {d : DMat} {x : DVec} (hl : d.cols ≠ x.len) : mulVec s d x = .exc := by
  rw [mulVec, newVec_eq]
  simp only [pyGemv]
  rw [if_neg (by simp [nv]), if_pos hl]; rfl

theorem mulMat_ok {s : St K} {A B : DMat} (hA : MOk s A) (hB : MOk s B) (hl : A.cols = B.rows) :
    NewMat s (mulMat s A B) A.rows B.cols
      (fun i j => ∑ k ∈ Finset.range A.cols, s.mem (A.ref i k) * s.mem (B.ref k j)) := by
  obtain ⟨h1, h2, h0⟩ := newMat_ok s A.rows B.cols
  have he := alloc_ext s (A.rows * B.cols)
  obtain ⟨hi, hw⟩ := C35_gemm_partial false false (1 : K) 1 A B (nm s A.rows B.cols)
    (alloc s (A.rows * B.cols)).2.mem (by simp)
  obtain ⟨m, hm⟩ := Option.isSome_iff_exists.1 (hi.2 ⟨by simp [DMat.opRows, nm],
    by simpa [DMat.opCols, DMat.opRows] using hl, by simp [DMat.opCols, nm]⟩)
  have hw := hw h1.ld (mapart_new hA h2) (mapart_new hB h2) m hm
  refine ⟨nm s A.rows B.cols, { (alloc s (A.rows * B.cols)).2 with mem := m }, ?_, ext_mwrite he h2 hw,
    ⟨h2.ld, h2.ge, h2.le⟩, h1.mem _, rfl, rfl, ?_⟩
  · rw [mulMat, newMat_eq]
    simp only [pyGemm]
    rw [if_neg (by simp [nm, hl]), hm, call_ok]
    · rfl
    · intro a ha
      rcases List.mem_append.1 ha with ha | ha
      · rcases List.mem_append.1 ha with ha | ha
        · exact (hA.ext he).acc a ha
        · exact (hB.ext he).acc a ha
      · exact h1.acc a ha
  · intro i hi j hj
    refine (hw.1 i hi j hj).trans ?_
    beta_reduce
    rw [h0 i hi j hj]
    simp only [one_mul, add_zero, DMat.op, Bool.false_eq_true, if_false]
    refine Finset.sum_congr rfl fun k hk => ?_
    have hk := Finset.mem_range.1 hk
    rw [he.mem _ (hA.lt i hi k hk), he.mem _ (hB.lt k (by omega) j hj)]

theorem mulMat_exc {s : St K} {A B : DMat} (hl : A.cols ≠ B.rows) : mulMat s A B = .exc := by
  rw [mulMat, newMat_eq]
  simp only [pyGemm]
  rw [if_pos (by simp [hl])]; rfl

theorem transpose_ok {s : St K} {d : DMat} (h : MOk s d) :
    NewMat s (transpose s d) d.cols d.rows (fun i j => s.mem (d.ref j i)) := by
  obtain ⟨h1, h2, -⟩ := newMat_ok s d.cols d.rows
  have he := alloc_ext s (d.cols * d.rows)
  obtain ⟨m, hm, hw⟩ := (C33_trans d (nm s d.cols d.rows) h1.ld (fun i hi j hj i' hi' j' hj' e => by
    have h3 := h.lt i hi j hj; have h4 := h2.ref_ge j' i'; omega)
    (alloc s (d.cols * d.rows)).2.mem).2 rfl rfl
  refine ⟨nm s d.cols d.rows, { (alloc s (d.cols * d.rows)).2 with mem := m }, ?_, ext_mwrite he h2 hw,
    ⟨h2.ld, h2.ge, h2.le⟩, h1.mem _, rfl, rfl, ?_⟩
  · rw [transpose, newMat_eq]
    simp only []
    rw [hm, call_ok]
    · rfl
    · intro a ha
      rcases List.mem_append.1 ha with ha | ha
      · exact (h.ext he).acc a ha
      · exact h1.acc a ha
  · intro i hi j hj
    refine (hw.1 i hi j hj).trans ?_
    beta_reduce
    rw [he.mem _ (h.lt j hj i hi)]

end Verif.PyMat
