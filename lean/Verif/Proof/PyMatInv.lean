import Verif.Proof.PyMat

/-! # The storage of a Python program with vectors and matrices -/

namespace Verif.PyMat

open Verif.Mat

set_option linter.unusedSectionVars false
set_option linter.unusedSimpArgs false
variable {K : Type} [Field K] [DecidableEq K]

/-- the elements of an object. -/
def Obj.acc : Obj → List Nat
  | .vec d _ => vAcc d
  | .mat d _ => mAcc d

/-- the object is in order and its elements are in the array. -/
def Inside (b : Buf) : Obj → Prop
  | .vec d _ => 0 < d.inc ∧ ∀ k < d.len, Buf.has b (d.ref k) = true
  | .mat d _ => d.rows ≤ d.ld ∧ ∀ i < d.rows, ∀ j < d.cols, Buf.has b (d.ref i j) = true

/-- the arrays ever made are apart, and every object is in one of them: the one it owns, if it owns one. -/
structure InvB (B : Buf → Prop) (env : List (Nat × Obj)) (next : Nat) : Prop where
  le : ∀ b, B b → b.1 + b.2 ≤ next
  apart : ∀ b c, B b → B c → ∀ a, Buf.has b a = true → Buf.has c a = true → b = c
  objs : ∀ p ∈ env, ∃ b, B b ∧ Inside b p.2 ∧ ∀ c, p.2.own = some c → c = b

structure Inv (s : St K) : Prop where
  tmp : s.tmp = []
  bufs : ∃ B, InvB B s.env s.next

theorem get_mem {s : St K} {x : Nat} {o : Obj} (h : s.get x = some o) : (x, o) ∈ s.env := by
  simp only [St.get] at h
  revert h
  generalize s.env = l
  intro h
  induction l with
  | nil => simp at h
  | cons p ps ih =>
    rw [List.lookup_cons] at h
    split at h
    · rename_i hx
      have hx : x = p.1 := by simpa using hx
      have ho : p.2 = o := by simpa using h
      subst hx; subst ho
      exact List.mem_cons_self
    · exact List.mem_cons_of_mem _ (ih h)

theorem lookup_filter (l : List (Nat × Obj)) {x z : Nat} (h : z ≠ x) :
    (l.filter (fun p => p.1 != x)).lookup z = l.lookup z := by
  induction l with
  | nil => rfl
  | cons p ps ih =>
    rw [List.filter_cons]
    split
    · rw [List.lookup_cons, List.lookup_cons, ih]
    · rename_i hx
      have hx : p.1 = x := by simpa using hx
      rw [ih, List.lookup_cons]
      have : (z == p.1) = false := by rw [hx]; simpa using h
      rw [this]

theorem get_put (s : St K) (x z : Nat) (o : Obj) :
    (s.put x o).get z = if z = x then some o else s.get z := by
  simp only [St.put, St.get]
  rw [List.lookup_cons]
  split
  · rename_i h
    have h : z = x := by simpa using h
    rw [if_pos h]
  · rename_i h
    have h : z ≠ x := by simpa using h
    rw [if_neg h, lookup_filter _ h]

theorem mem_put {s : St K} {x : Nat} {o : Obj} {p : Nat × Obj} :
    p ∈ (s.put x o).env ↔ p = (x, o) ∨ (p ∈ s.env ∧ p.1 ≠ x) := by
  simp [St.put]

/-- a new object may be bound. -/
theorem inv_put_new {s s' : St K} {x : Nat} {o : Obj} (h : ∃ B, InvB B s.env s.next) (he : s'.env = s.env)
    (hn : (∃ v, o = ownVec v ∧ NewV s s' v) ∨ ∃ v, o = ownMat v ∧ NewM s s' v)
    (hle : s.next ≤ s'.next) : Inv (s'.put x o) := by
  obtain ⟨B, h1, h2, h3⟩ := h
  have key : ∃ c : Buf, s.next ≤ c.1 ∧ c.1 + c.2 ≤ s'.next ∧ Inside c o ∧ o.own = some c := by
    rcases hn with ⟨v, rfl, n⟩ | ⟨v, rfl, n⟩
    · refine ⟨(v.data, v.len), n.ge, n.le, ⟨by rw [n.inc]; exact Nat.one_pos, fun k hk => ?_⟩, rfl⟩
      rw [has_iff]; simp only [DVec.ref, n.inc]; omega
    · refine ⟨(v.data, v.rows * v.cols), n.ge, n.le, ⟨by rw [n.ld], fun i hi j hj => ?_⟩, rfl⟩
      rw [has_iff]; simp only [DMat.ref, n.ld]; have := idx_lt hi hj; omega
  obtain ⟨c, c1, c2, c3, c4⟩ := key
  refine ⟨rfl, fun b => B b ∨ b = c, ?_, ?_, ?_⟩
  · rintro b (hb | rfl)
    · have := h1 b hb; show b.1 + b.2 ≤ s'.next; omega
    · exact c2
  · rintro b e (hb | rfl) (he | rfl) a ha ha'
    · exact h2 b e hb he a ha ha'
    · have := h1 b hb; rw [has_iff] at ha ha'; omega
    · have := h1 e he; rw [has_iff] at ha ha'; omega
    · rfl
  · intro p hp
    rcases mem_put.1 hp with rfl | ⟨hp, -⟩
    · exact ⟨c, Or.inr rfl, c3, fun e h => by
        have h : o.own = some e := h
        rw [c4] at h; injection h with h; exact h.symm⟩
    · obtain ⟨b, hb, h4, h5⟩ := h3 p (he ▸ hp)
      exact ⟨b, Or.inl hb, h4, h5⟩

/-- a name for an object, or a view of one. -/
theorem inv_put_view {s s' : St K} {x : Nat} {o o' : Obj} {y : Nat} (h : ∃ B, InvB B s.env s.next)
    (he : s'.env = s.env) (hle : s.next ≤ s'.next)
    (hy : (y, o') ∈ s.env) (hi : ∀ b, Inside b o' → Inside b o) (ho : o.own = none ∨ o.own = o'.own) :
    Inv (s'.put x o) := by
  obtain ⟨B, h1, h2, h3⟩ := h
  refine ⟨rfl, B, fun b hb => (h1 b hb).trans hle, h2, ?_⟩
  intro p hp
  rcases mem_put.1 hp with rfl | ⟨hp, -⟩
  · obtain ⟨b, hb, h4, h5⟩ := h3 _ hy
    refine ⟨b, hb, hi b h4, fun c hc => ?_⟩
    rcases ho with ho | ho
    · have hc : o.own = some c := hc
      rw [ho] at hc; cases hc
    · exact h5 c (ho ▸ hc)
  · exact h3 p (he ▸ hp)

/-! ## The effect of every function on the variables -/

theorem call_str {s s' : St K} {l : List Nat} {m : Option (Mem K)} (h : call s l m = .ok s') :
    s'.env = s.env ∧ s'.next = s.next := by
  cases m with
  | none => cases h
  | some m =>
    simp only [call, use] at h
    split at h
    · injection h with h; subst h; exact ⟨rfl, rfl⟩
    · cases h

theorem dupVec_str {s s' : St K} {d v : DVec} (h : dupVec s d = .ok (v, s')) :
    s'.env = s.env ∧ s.next ≤ s'.next ∧ NewV s s' v := by
  rw [dupVec, newVec_eq] at h
  obtain ⟨s2, h1, h2⟩ := bind_eq_ok h
  injection h2 with h2; injection h2 with h2 h3; subst h2; subst h3
  simp only [vCopyFrom] at h1
  split at h1
  · cases h1
  · obtain ⟨e1, e2⟩ := call_str h1
    refine ⟨e1, by rw [e2]; simp [alloc], rfl, le_refl _, by rw [e2]; simp [alloc, nv]⟩

theorem dupMat_str {s s' : St K} {d v : DMat} (h : dupMat s d = .ok (v, s')) :
    s'.env = s.env ∧ s.next ≤ s'.next ∧ NewM s s' v := by
  rw [dupMat, newMat_eq] at h
  obtain ⟨s2, h1, h2⟩ := bind_eq_ok h
  injection h2 with h2; injection h2 with h2 h3; subst h2; subst h3
  simp only [mCopyFrom] at h1
  split at h1
  · cases h1
  · obtain ⟨e1, e2⟩ := call_str h1
    refine ⟨e1, by rw [e2]; simp [alloc], rfl, le_refl _, by rw [e2]; simp [alloc, nm]⟩

theorem listVec_str {s s' : St K} {l : List K} {v : DVec} (h : listVec s l = .ok (v, s')) :
    s'.env = s.env ∧ s.next ≤ s'.next ∧ NewV s s' v := by
  obtain ⟨s1, h1, h2, -, h3, -⟩ := listVec_ok s l
  rw [h1] at h
  injection h with h; injection h with h4 h5; subst h4; subst h5
  exact ⟨h2.env, h2.le, h3⟩

/-- the result is a new object. -/
def StrN (s : St K) (r : Out (Obj × St K)) : Prop :=
  ∀ o s', r = .ok (o, s') → s'.env = s.env ∧ s.next ≤ s'.next ∧
    ((∃ v, o = ownVec v ∧ NewV s s' v) ∨ ∃ v, o = ownMat v ∧ NewM s s' v)

/-- the variables stay. -/
def StrI (s : St K) (r : Out (St K)) : Prop := ∀ s', r = .ok s' → s'.env = s.env ∧ s.next ≤ s'.next

theorem strI_call (s : St K) (l : List Nat) (m : Option (Mem K)) : StrI s (call s l m) := by
  intro s' h
  obtain ⟨h1, h2⟩ := call_str h
  exact ⟨h1, by rw [h2]⟩

theorem strI_exc (s : St K) : StrI s .exc := by intro s' h; cases h
theorem strN_exc (s : St K) : StrN s .exc := by intro o s' h; cases h

theorem strI_axpy (s : St K) (a : K) (x y : DVec) : StrI s (axpy s a x y) := strI_call _ _ _
theorem strI_increment (s : St K) (d : DVec) (a : K) : StrI s (increment s d a) := strI_call _ _ _

theorem strI_bind {s : St K} {r : Out (St K)} {f : St K → Out (St K)} (h : StrI s r)
    (hf : ∀ s1, StrI s1 (f s1)) : StrI s (r.bind f) := by
  intro s' h1
  obtain ⟨s1, h2, h3⟩ := bind_eq_ok h1
  obtain ⟨e1, e2⟩ := h s1 h2
  obtain ⟨e3, e4⟩ := hf s1 s' h3
  exact ⟨e3.trans e1, e2.trans e4⟩

theorem strI_vIadd (s : St K) (d : DVec) (w : Arg K) : StrI s (vIadd s d w) := by
  match w with
  | .num a => rw [vIadd]; exact strI_increment _ _ _
  | .obj (.vec w _) => rw [vIadd]; exact strI_axpy _ _ _ _
  | .obj (.mat _ _) => exact strI_exc _
  | .list l =>
    intro s' h
    rw [vIadd] at h
    obtain ⟨⟨v, s1⟩, h1, h2⟩ := bind_eq_ok h
    obtain ⟨e1, e2, -⟩ := listVec_str h1
    obtain ⟨e3, e4⟩ := strI_axpy _ _ _ _ s' h2
    exact ⟨e3.trans e1, e2.trans e4⟩

theorem strI_vImul (s : St K) (d : DVec) (w : Arg K) : StrI s (vImul s d w) := by
  match w with
  | .num a => rw [vImul]; exact strI_call _ _ _
  | .obj _ => exact strI_exc _
  | .list _ => exact strI_exc _

theorem strI_vIdiv (s : St K) (d : DVec) (w : Arg K) : StrI s (vIdiv s d w) := by
  match w with
  | .num a =>
    rw [vIdiv]; split
    · exact strI_exc _
    · exact strI_vImul _ _ _
  | .obj _ => exact strI_exc _
  | .list _ => exact strI_exc _

theorem strI_mImul (s : St K) (d : DMat) (w : Arg K) : StrI s (mImul s d w) := by
  match w with
  | .num a => rw [mImul]; exact strI_call _ _ _
  | .obj _ => exact strI_exc _
  | .list _ => exact strI_exc _

theorem strI_mIdiv (s : St K) (d : DMat) (w : Arg K) : StrI s (mIdiv s d w) := by
  match w with
  | .num a =>
    rw [mIdiv]; split
    · exact strI_exc _
    · exact strI_mImul _ _ _
  | .obj _ => exact strI_exc _
  | .list _ => exact strI_exc _

theorem strI_mIadd (s : St K) (d : DMat) (w : Arg K) : StrI s (mIadd s d w) := by
  match w with
  | .num a => rw [mIadd]; exact strI_call _ _ _
  | .obj (.mat w _) => rw [mIadd]; exact strI_call _ _ _
  | .obj (.vec _ _) => exact strI_exc _
  | .list _ => exact strI_exc _

theorem strI_mIsub (s : St K) (d : DMat) (w : Arg K) : StrI s (mIsub s d w) := by
  match w with
  | .num a => rw [mIsub]; exact strI_call _ _ _
  | .obj (.mat w _) => rw [mIsub]; exact strI_call _ _ _
  | .obj (.vec _ _) => exact strI_exc _
  | .list _ => exact strI_exc _

theorem strN_vOn (s : St K) (d : DVec) (F : St K → DVec → Out (St K)) (h : ∀ s1 v, StrI s1 (F s1 v)) :
    StrN s (vOn s d F) := by
  intro o s' h1
  rw [vOn] at h1
  obtain ⟨⟨v, s1⟩, h2, h3⟩ := bind_eq_ok h1
  obtain ⟨e1, e2, n⟩ := dupVec_str h2
  obtain ⟨s2, h4, h5⟩ := bind_eq_ok h3
  injection h5 with h5; injection h5 with h5 h6; subst h6
  obtain ⟨e3, e4⟩ := h _ _ _ h4
  exact ⟨e3.trans e1, e2.trans e4, Or.inl ⟨v, h5.symm, n.inc, n.ge, n.le.trans e4⟩⟩

theorem strN_mOn (s : St K) (d : DMat) (F : St K → DMat → Out (St K)) (h : ∀ s1 v, StrI s1 (F s1 v)) :
    StrN s (mOn s d F) := by
  intro o s' h1
  rw [mOn] at h1
  obtain ⟨⟨v, s1⟩, h2, h3⟩ := bind_eq_ok h1
  obtain ⟨e1, e2, n⟩ := dupMat_str h2
  obtain ⟨s2, h4, h5⟩ := bind_eq_ok h3
  injection h5 with h5; injection h5 with h5 h6; subst h6
  obtain ⟨e3, e4⟩ := h _ _ _ h4
  exact ⟨e3.trans e1, e2.trans e4, Or.inr ⟨v, h5.symm, n.ld, n.ge, n.le.trans e4⟩⟩

theorem strN_list (s : St K) (l : List K) (F : DVec × St K → Out (Obj × St K))
    (h : ∀ v s1, NewV s s1 v → StrN s1 (F (v, s1))) : StrN s ((listVec s l).bind F) := by
  intro o s' h1
  obtain ⟨⟨v, s1⟩, h2, h3⟩ := bind_eq_ok h1
  obtain ⟨e1, e2, n⟩ := listVec_str h2
  obtain ⟨e3, e4, e5⟩ := h v s1 n o s' h3
  refine ⟨e3.trans e1, e2.trans e4, ?_⟩
  rcases e5 with ⟨v, rfl, n⟩ | ⟨v, rfl, n⟩
  · exact Or.inl ⟨v, rfl, n.inc, e2.trans n.ge, n.le⟩
  · exact Or.inr ⟨v, rfl, n.ld, e2.trans n.ge, n.le⟩

theorem strN_vSub (s : St K) (d : DVec) (w : Arg K) : StrN s (vSub s d w) := by
  match w with
  | .num a => rw [vSub]; exact strN_vOn _ _ _ fun _ _ => strI_increment _ _ _
  | .obj (.vec w _) => rw [vSub]; exact strN_vOn _ _ _ fun _ _ => strI_axpy _ _ _ _
  | .obj (.mat _ _) => exact strN_exc _
  | .list l => rw [vSub]; exact strN_list _ _ _ fun v s1 _ => strN_vOn _ _ _ fun _ _ => strI_axpy _ _ _ _

theorem strN_vRsub (s : St K) (d : DVec) (w : Arg K) : StrN s (vRsub s d w) := by
  match w with
  | .num a =>
    rw [vRsub]
    exact strN_vOn _ _ _ fun _ _ => strI_bind (strI_vImul _ _ _) fun _ => strI_increment _ _ _
  | .obj _ => exact strN_exc _
  | .list l =>
    intro o s' h
    rw [vRsub] at h
    obtain ⟨⟨v, s1⟩, h1, h2⟩ := bind_eq_ok h
    obtain ⟨e1, e2, n⟩ := listVec_str h1
    obtain ⟨s2, h3, h4⟩ := bind_eq_ok h2
    injection h4 with h4; injection h4 with h4 h5; subst h5
    obtain ⟨e3, e4⟩ := strI_axpy _ _ _ _ _ h3
    exact ⟨e3.trans e1, e2.trans e4, Or.inl ⟨v, h4.symm, n.inc, n.ge, n.le.trans e4⟩⟩

theorem strN_mAdd (s : St K) (d : DMat) (w : Arg K) : StrN s (mAdd s d w) := by
  match w with
  | .num a => rw [mAdd]; exact strN_mOn _ _ _ fun _ _ => strI_mIadd _ _ _
  | .obj (.mat w o) => rw [mAdd]; exact strN_mOn _ _ _ fun _ _ => strI_mIadd _ _ _
  | .obj (.vec _ _) => exact strN_exc _
  | .list _ => exact strN_exc _

theorem strN_mSub (s : St K) (d : DMat) (w : Arg K) : StrN s (mSub s d w) := by
  match w with
  | .num a => rw [mSub]; exact strN_mOn _ _ _ fun _ _ => strI_mIsub _ _ _
  | .obj (.mat w o) => rw [mSub]; exact strN_mOn _ _ _ fun _ _ => strI_mIsub _ _ _
  | .obj (.vec _ _) => exact strN_exc _
  | .list _ => exact strN_exc _

theorem strN_mulVec (s : St K) (d : DMat) (x : DVec) : StrN s (mulVec s d x) := by
  intro o s' h
  rw [mulVec, newVec_eq] at h
  obtain ⟨s2, h1, h2⟩ := bind_eq_ok h
  injection h2 with h2; injection h2 with h2 h3; subst h3
  simp only [pyGemv] at h1
  split at h1
  · cases h1
  · split at h1
    · cases h1
    · obtain ⟨e1, e2⟩ := call_str h1
      exact ⟨e1, by rw [e2]; simp [alloc], Or.inl ⟨_, h2.symm, rfl, le_refl _, by rw [e2]; simp [alloc, nv]⟩⟩

theorem strN_mulMat (s : St K) (A B : DMat) : StrN s (mulMat s A B) := by
  intro o s' h
  rw [mulMat, newMat_eq] at h
  obtain ⟨s2, h1, h2⟩ := bind_eq_ok h
  injection h2 with h2; injection h2 with h2 h3; subst h3
  simp only [pyGemm] at h1
  split at h1
  · cases h1
  · obtain ⟨e1, e2⟩ := call_str h1
    exact ⟨e1, by rw [e2]; simp [alloc], Or.inr ⟨_, h2.symm, rfl, le_refl _, by rw [e2]; simp [alloc, nm]⟩⟩

theorem strN_transpose (s : St K) (d : DMat) : StrN s (transpose s d) := by
  intro o s' h
  rw [transpose, newMat_eq] at h
  obtain ⟨s2, h1, h2⟩ := bind_eq_ok h
  injection h2 with h2; injection h2 with h2 h3; subst h3
  obtain ⟨e1, e2⟩ := call_str h1
  exact ⟨e1, by rw [e2]; simp [alloc], Or.inr ⟨_, h2.symm, rfl, le_refl _, by rw [e2]; simp [alloc, nm]⟩⟩

theorem strN_mMul (s : St K) (d : DMat) (w : Arg K) : StrN s (mMul s d w) := by
  match w with
  | .num a => rw [mMul]; exact strN_mOn _ _ _ fun _ _ => strI_mImul _ _ _
  | .obj (.mat w o) => rw [mMul]; exact strN_mulMat _ _ _
  | .obj (.vec _ _) => rw [mMul]; exact strN_mulVec _ _ _
  | .list _ => rw [mMul]; exact strN_list _ _ _ fun v s1 _ => strN_mulVec _ _ _

theorem strN_binop (s : St K) (op : Op) (o : Obj) (w : Arg K) : StrN s (binop s op o w) := by
  cases op <;> cases o <;> simp only [binop]
  · simp only [vAdd, vMul, vDiv, vNeg]; exact strN_vOn _ _ _ fun _ _ => strI_vIadd _ _ _
  · exact strN_mAdd _ _ _
  · exact strN_vSub _ _ _
  · exact strN_mSub _ _ _
  · simp only [vAdd, vMul, vDiv, vNeg]; exact strN_vOn _ _ _ fun _ _ => strI_vImul _ _ _
  · exact strN_mMul _ _ _
  · simp only [vAdd, vMul, vDiv, vNeg]; exact strN_vOn _ _ _ fun _ _ => strI_vIdiv _ _ _
  · simp only [mDiv, mNeg]; exact strN_mOn _ _ _ fun _ _ => strI_mIdiv _ _ _

theorem strN_rbinop (s : St K) (op : Op) (o : Obj) (w : Arg K) : StrN s (rbinop s op w o) := by
  cases op <;> cases o <;> simp only [rbinop]
  · simp only [vAdd, vMul, vDiv, vNeg]; exact strN_vOn _ _ _ fun _ _ => strI_vIadd _ _ _
  · cases w <;> simp only [mRadd, mRmul, mRsub] <;> first | exact strN_exc _ | exact strN_mOn _ _ _ fun _ _ => strI_mIadd _ _ _
  · exact strN_vRsub _ _ _
  · cases w <;> simp only [mRsub] <;> first | exact strN_exc _ |
      exact strN_mOn _ _ _ fun _ _ => strI_bind (strI_mImul _ _ _) fun _ => strI_mIadd _ _ _
  · simp only [vAdd, vMul, vDiv, vNeg]; exact strN_vOn _ _ _ fun _ _ => strI_vImul _ _ _
  · cases w <;> simp only [mRadd, mRmul, mRsub] <;> first | exact strN_exc _ | exact strN_mOn _ _ _ fun _ _ => strI_mImul _ _ _
  · exact strN_exc _
  · exact strN_exc _

theorem strN_neg (s : St K) (o : Obj) : StrN s (negObj s o) := by
  cases o <;> rw [negObj]
  · simp only [vAdd, vMul, vDiv, vNeg]; exact strN_vOn _ _ _ fun _ _ => strI_vImul _ _ _
  · simp only [mDiv, mNeg]; exact strN_mOn _ _ _ fun _ _ => strI_mImul _ _ _

theorem strN_dup (s : St K) (o : Obj) : StrN s (dupObj s o) := by
  intro o' s' h
  cases o <;> rw [dupObj] at h <;> obtain ⟨⟨v, s1⟩, h1, h2⟩ := bind_eq_ok h <;>
    (injection h2 with h2; injection h2 with h2 h3; subst h3)
  · obtain ⟨e1, e2, n⟩ := dupVec_str h1; exact ⟨e1, e2, Or.inl ⟨v, h2.symm, n⟩⟩
  · obtain ⟨e1, e2, n⟩ := dupMat_str h1; exact ⟨e1, e2, Or.inr ⟨v, h2.symm, n⟩⟩

/-- `x op= arg` keeps the object or makes a new one. -/
theorem ibinop_str (s : St K) (op : Op) (o : Obj) (w : Arg K) (o' : Obj) (s' : St K)
    (h : ibinop s op o w = .ok (o', s')) :
    s'.env = s.env ∧ s.next ≤ s'.next ∧
      (((∃ v, o' = ownVec v ∧ NewV s s' v) ∨ ∃ v, o' = ownMat v ∧ NewM s s' v) ∨ o' = o) ∧
      (o' = o ∨ (op = .sub ∧ ∃ d b, o = .vec d b)) := by
  have key : ∀ r : Out (St K), StrI s r → (r.bind fun s1 => .ok (o, s1)) = .ok (o', s') →
      s'.env = s.env ∧ s.next ≤ s'.next ∧ o' = o := by
    intro r hr h
    obtain ⟨s1, h1, h2⟩ := bind_eq_ok h
    injection h2 with h2; injection h2 with h2 h3; subst h3
    obtain ⟨e1, e2⟩ := hr _ h1
    exact ⟨e1, e2, h2.symm⟩
  have fin : (s'.env = s.env ∧ s.next ≤ s'.next ∧ o' = o) → _ := fun e =>
    (⟨e.1, e.2.1, Or.inr e.2.2, Or.inl e.2.2⟩ : s'.env = s.env ∧ s.next ≤ s'.next ∧
      (((∃ v, o' = ownVec v ∧ NewV s s' v) ∨ ∃ v, o' = ownMat v ∧ NewM s s' v) ∨ o' = o) ∧
      (o' = o ∨ (op = .sub ∧ ∃ d b, o = .vec d b)))
  cases op <;> cases o <;> simp only [ibinop] at h
  · exact fin (key _ (strI_vIadd _ _ _) h)
  · exact fin (key _ (strI_mIadd _ _ _) h)
  · obtain ⟨e1, e2, e3⟩ := strN_vSub _ _ _ _ _ h
    exact ⟨e1, e2, Or.inl e3, Or.inr ⟨rfl, _, _, rfl⟩⟩
  · exact fin (key _ (strI_mIsub _ _ _) h)
  · exact fin (key _ (strI_vImul _ _ _) h)
  · exact fin (key _ (strI_mImul _ _ _) h)
  · exact fin (key _ (strI_vIdiv _ _ _) h)
  · exact fin (key _ (strI_mIdiv _ _ _) h)

/-! ## Views are inside the storage of what they are taken from -/

theorem slice_inside {b : Buf} {d v : DVec} {o : Option Buf} {i j k : Nat} (h : slice d i j k = some v)
    (hb : Inside b (.vec d o)) : Inside b (.vec v none) := by
  obtain ⟨h1, h2, h3, h4, -⟩ := C34_slice_partial d i j k v h
  refine ⟨?_, fun l hl => by rw [(h4 l hl).2.2]; exact hb.2 _ (h4 l hl).2.1⟩
  simp only [slice] at h
  rw [if_neg (by omega), if_neg (by omega)] at h
  injection h with h
  subst h
  exact Nat.mul_pos hb.1 h3

theorem row_inside {b : Buf} {d : DMat} {v : DVec} {o : Option Buf} {i : Nat} (h : rowVec d i = some v)
    (hb : Inside b (.mat d o)) : Inside b (.vec v none) := by
  obtain ⟨h1, h2⟩ := (C33_views d).2.1 i v h
  refine ⟨?_, fun l hl => by rw [(h2 l hl).2.2]; exact hb.2 _ (h2 l hl).1 _ (h2 l hl).2.1⟩
  simp only [rowVec] at h
  split at h
  · cases h
  · injection h with h
    subst h
    have := hb.1
    show 0 < d.ld
    omega

theorem col_inside {b : Buf} {d : DMat} {v : DVec} {o : Option Buf} {i : Nat} (h : colVec d i = some v)
    (hb : Inside b (.mat d o)) : Inside b (.vec v none) := by
  obtain ⟨h1, h2⟩ := (C33_views d).2.2.1 i v h
  refine ⟨?_, fun l hl => by rw [(h2 l hl).2.2]; exact hb.2 _ (h2 l hl).1 _ (h2 l hl).2.1⟩
  simp only [colVec] at h
  split at h
  · cases h
  · injection h with h
    subst h
    exact Nat.one_pos

theorem diag_inside {b : Buf} {d : DMat} {o : Option Buf} (hb : Inside b (.mat d o)) :
    Inside b (pyDiag d) := by
  obtain ⟨h1, h2⟩ := (C33_views d).2.2.2
  exact ⟨Nat.succ_pos _, fun l hl => by rw [(h2 l hl).2.2]; exact hb.2 _ (h2 l hl).1 _ (h2 l hl).2.1⟩

theorem block_inside {b : Buf} {d M : DMat} {o : Option Buf} {i j k l : Nat} (h : block d i j k l = some M)
    (hb : Inside b (.mat d o)) : Inside b (.mat M none) := by
  obtain ⟨h1, h2, h3, -, -, h4⟩ := (C33_views d).1 i j k l M h
  refine ⟨?_, fun p hp q hq => by
    rw [(h4 p hp q hq).2.2]; exact hb.2 _ (h4 p hp q hq).1 _ (h4 p hp q hq).2.1⟩
  have := (C33_bounds d).1 i j k l
  rw [h] at this
  have := this.1 rfl
  have := hb.1
  rw [h1, h3]; omega

theorem look_ok {s : St K} {x : Nat} {o : Obj} (h : look s x = .ok o) : s.get x = some o := by
  simp only [look] at h
  split at h
  · cases h
  · rename_i h1; injection h with h; subst h; exact h1

theorem orAbort_ok {α : Type} {x : Option α} {a : α} (h : orAbort x = .ok a) : x = some a := by
  cases x with
  | none => cases h
  | some b => simp only [orAbort] at h; injection h with h; rw [h]

/-! ## One statement -/

/-- the variable that a statement binds to another object or deletes. -/
def rebinds (s : St K) : Stmt K → Option Nat
  | .vecNew x _ | .vecList x _ | .matNew x _ _ | .dup x _ | .name x _ | .del x | .bin x _ _ _
  | .rbinNum x _ _ _ | .rbinList x _ _ _ | .neg x _ | .trans x _ | .slice x _ _ _ _ | .row x _ _
  | .col x _ _ | .diag x _ | .block x _ _ _ _ _ _ _ => some x
  | .ibin x op _ => match op, s.get x with
    | .sub, some (.vec _ _) => some x
    | _, _ => none
  | .setV _ _ _ | .setM _ _ _ _ => none

theorem asVec_ok {α : Type} {o : Obj} {f : DVec → Out α} {r : α} (h : asVec o f = .ok r) :
    ∃ d b, o = .vec d b ∧ f d = .ok r := by
  cases o with
  | vec d b => exact ⟨d, b, rfl, h⟩
  | mat d b => cases h

theorem asMat_ok {α : Type} {o : Obj} {f : DMat → Out α} {r : α} (h : asMat o f = .ok r) :
    ∃ d b, o = .mat d b ∧ f d = .ok r := by
  cases o with
  | mat d b => exact ⟨d, b, rfl, h⟩
  | vec d b => cases h

/-- what every statement that ends normally does to the variables. -/
theorem step_str {s s' : St K} {p : Stmt K} (hi : Inv s) (h : step s p = .ok s') :
    Inv s' ∧ ∀ x, rebinds s p ≠ some x → s'.get x = s.get x := by
  have hn : ∀ (x : Nat) (r : Out (Obj × St K)), StrN s r → (r.bind (bindTo x)) = .ok s' →
      Inv s' ∧ ∀ z, some x ≠ some z → s'.get z = s.get z := by
    intro x r hr hb
    obtain ⟨⟨o, s1⟩, h1, h2⟩ := bind_eq_ok hb
    obtain ⟨e1, e2, e3⟩ := hr o s1 h1
    simp only [bindTo] at h2
    injection h2 with h2
    subst h2
    refine ⟨inv_put_new hi.bufs e1 e3 e2, fun z hz => ?_⟩
    rw [get_put, if_neg (fun e => hz (by rw [e]))]
    simp only [St.get, e1]
  have hv : ∀ (x y : Nat) (o o' : Obj), s.get y = some o' → (∀ b, Inside b o' → Inside b o) →
      (o.own = none ∨ o.own = o'.own) → bindTo x (o, s) = .ok s' →
      Inv s' ∧ ∀ z, some x ≠ some z → s'.get z = s.get z := by
    intro x y o o' hy h1 h2 h3
    simp only [bindTo] at h3
    injection h3 with h3
    subst h3
    refine ⟨inv_put_view hi.bufs rfl (le_refl _) (get_mem hy) h1 h2, fun z hz => ?_⟩
    rw [get_put, if_neg (fun e => hz (by rw [e]))]
  cases p with
  | vecNew x n =>
    refine hn x (.ok (ownVec (newVec s n).1, (newVec s n).2)) ?_ h
    intro o s1 e
    injection e with e; injection e with e1 e2; subst e1; subst e2
    exact ⟨rfl, by simp [newVec, alloc], Or.inl ⟨_, rfl, (newVec_ok s n).2.1⟩⟩
  | vecList x l =>
    simp only [step] at h
    refine hn x ((listVec s l).bind fun p => .ok (ownVec p.1, p.2)) ?_ ?_
    · intro o s1 e
      obtain ⟨⟨v, s2⟩, h1, h2⟩ := bind_eq_ok e
      injection h2 with h2; injection h2 with e1 e2; subst e1; subst e2
      obtain ⟨e1, e2, n⟩ := listVec_str h1
      exact ⟨e1, e2, Or.inl ⟨_, rfl, n⟩⟩
    · obtain ⟨⟨v, s2⟩, h1, h2⟩ := bind_eq_ok h
      rw [h1]; exact h2
  | matNew x m n =>
    refine hn x (.ok (ownMat (newMat s m n).1, (newMat s m n).2)) ?_ h
    intro o s1 e
    injection e with e; injection e with e1 e2; subst e1; subst e2
    exact ⟨rfl, by simp [newMat, alloc], Or.inr ⟨_, rfl, (newMat_ok s m n).2.1⟩⟩
  | dup x y =>
    simp only [step] at h
    obtain ⟨o, h1, h2⟩ := bind_eq_ok h
    exact hn x _ (strN_dup s o) h2
  | name x y =>
    simp only [step] at h
    obtain ⟨o, h1, h2⟩ := bind_eq_ok h
    exact hv x y o o (look_ok h1) (fun _ h => h) (Or.inr rfl) h2
  | del x =>
    simp only [step] at h
    obtain ⟨o, h1, h2⟩ := bind_eq_ok h
    injection h2 with h2
    subst h2
    obtain ⟨ht, B, b1, b2, b3⟩ := hi
    refine ⟨⟨ht, B, b1, b2, fun p hp => b3 p (List.mem_of_mem_filter hp)⟩, fun z hz => ?_⟩
    exact lookup_filter _ (fun e => hz (by rw [rebinds, e]))
  | bin x op y w =>
    simp only [step] at h
    obtain ⟨o, h1, h2⟩ := bind_eq_ok h
    obtain ⟨a, h3, h4⟩ := bind_eq_ok h2
    exact hn x _ (strN_binop s op o a) h4
  | rbinNum x op a y =>
    simp only [step] at h
    obtain ⟨o, h1, h2⟩ := bind_eq_ok h
    exact hn x _ (strN_rbinop s op o _) h2
  | rbinList x op l y =>
    simp only [step] at h
    obtain ⟨o, h1, h2⟩ := bind_eq_ok h
    exact hn x _ (strN_rbinop s op o _) h2
  | neg x y =>
    simp only [step] at h
    obtain ⟨o, h1, h2⟩ := bind_eq_ok h
    exact hn x _ (strN_neg s o) h2
  | ibin x op w =>
    simp only [step] at h
    obtain ⟨o, h1, h2⟩ := bind_eq_ok h
    obtain ⟨a, h3, h4⟩ := bind_eq_ok h2
    obtain ⟨⟨o', s1⟩, h5, h6⟩ := bind_eq_ok h4
    obtain ⟨e1, e2, e3, e4⟩ := ibinop_str _ _ _ _ _ _ h5
    simp only [bindTo] at h6
    injection h6 with h6
    subst h6
    refine ⟨?_, fun z hz => ?_⟩
    · rcases e3 with e3 | rfl
      · exact inv_put_new hi.bufs e1 e3 e2
      · exact inv_put_view hi.bufs e1 e2 (get_mem (look_ok h1)) (fun _ h => h) (Or.inr rfl)
    · rw [get_put]
      split
      · rename_i hzx
        subst hzx
        rcases e4 with rfl | ⟨rfl, d, b, rfl⟩
        · exact (look_ok h1).symm
        · exfalso
          apply hz
          simp only [rebinds, look_ok h1]
      · simp only [St.get, e1]
  | trans x y =>
    simp only [step] at h
    obtain ⟨o, h1, h2⟩ := bind_eq_ok h
    obtain ⟨d, b, rfl, h3⟩ := asMat_ok h2
    exact hn x _ (strN_transpose s d) h3
  | slice x y a b c =>
    simp only [step] at h
    obtain ⟨o, h1, h2⟩ := bind_eq_ok h
    obtain ⟨d, b, rfl, h3⟩ := asVec_ok h2
    obtain ⟨v, h4, h5⟩ := bind_eq_ok h3
    simp only [pySlice] at h4
    obtain ⟨u, h6, h7⟩ := bind_eq_ok h4
    injection h7 with h7
    subst h7
    exact hv x y _ _ (look_ok h1) (fun b hb => slice_inside (orAbort_ok h6) hb) (Or.inl rfl) h5
  | row x y i =>
    simp only [step] at h
    obtain ⟨o, h1, h2⟩ := bind_eq_ok h
    obtain ⟨d, b, rfl, h3⟩ := asMat_ok h2
    obtain ⟨v, h4, h5⟩ := bind_eq_ok h3
    simp only [pyRow] at h4
    split at h4
    · cases h4
    · obtain ⟨u, h6, h7⟩ := bind_eq_ok h4
      injection h7 with h7
      subst h7
      exact hv x y _ _ (look_ok h1) (fun b hb => row_inside (orAbort_ok h6) hb) (Or.inl rfl) h5
  | col x y i =>
    simp only [step] at h
    obtain ⟨o, h1, h2⟩ := bind_eq_ok h
    obtain ⟨d, b, rfl, h3⟩ := asMat_ok h2
    obtain ⟨v, h4, h5⟩ := bind_eq_ok h3
    simp only [pyCol] at h4
    split at h4
    · cases h4
    · obtain ⟨u, h6, h7⟩ := bind_eq_ok h4
      injection h7 with h7
      subst h7
      exact hv x y _ _ (look_ok h1) (fun b hb => col_inside (orAbort_ok h6) hb) (Or.inl rfl) h5
  | diag x y =>
    simp only [step] at h
    obtain ⟨o, h1, h2⟩ := bind_eq_ok h
    obtain ⟨d, b, rfl, h3⟩ := asMat_ok h2
    exact hv x y _ _ (look_ok h1) (fun b hb => diag_inside hb) (Or.inl rfl) h3
  | block x y a b c e f g =>
    simp only [step] at h
    obtain ⟨o, h1, h2⟩ := bind_eq_ok h
    obtain ⟨d, ow, rfl, h3⟩ := asMat_ok h2
    obtain ⟨v, h4, h5⟩ := bind_eq_ok h3
    simp only [pyBlock] at h4
    split at h4
    · cases h4
    · split at h4
      · cases h4
      · split at h4
        · obtain ⟨u, h6, h7⟩ := bind_eq_ok h4
          injection h7 with h7
          subst h7
          exact hv x y _ _ (look_ok h1) (fun b hb => block_inside (orAbort_ok h6) hb) (Or.inl rfl) h5
        · cases h4
  | setV x k a =>
    simp only [step] at h
    obtain ⟨o, h1, h2⟩ := bind_eq_ok h
    obtain ⟨d, ow, rfl, h3⟩ := asVec_ok h2
    obtain ⟨s1, h4, h5⟩ := bind_eq_ok h3
    injection h5 with h5
    subst h5
    simp only [vSet, use] at h4
    split at h4
    · cases h4
    · split at h4
      · injection h4 with h4
        subst h4
        exact ⟨⟨rfl, hi.bufs⟩, fun _ _ => rfl⟩
      · cases h4
  | setM x i j a =>
    simp only [step] at h
    obtain ⟨o, h1, h2⟩ := bind_eq_ok h
    obtain ⟨d, ow, rfl, h3⟩ := asMat_ok h2
    obtain ⟨s1, h4, h5⟩ := bind_eq_ok h3
    injection h5 with h5
    subst h5
    simp only [mSet, use] at h4
    split at h4
    · cases h4
    · split at h4
      · cases h4
      · split at h4
        · injection h4 with h4
          subst h4
          exact ⟨⟨rfl, hi.bufs⟩, fun _ _ => rfl⟩
        · cases h4

theorem inv_init : Inv (init : St K) :=
  ⟨rfl, fun _ => False, fun _ h => h.elim, fun _ _ h => h.elim, fun p hp => by cases hp⟩

theorem run_inv (ps : List (Stmt K)) : ∀ s s' : St K, Inv s → run s ps = .ok s' → Inv s' := by
  induction ps with
  | nil => intro s s' h e; injection e with e; exact e ▸ h
  | cons p ps ih =>
    intro s s' h e
    obtain ⟨s1, h1, h2⟩ := bind_eq_ok e
    exact ih s1 s' (step_str h h1).1 h2

end Verif.PyMat
