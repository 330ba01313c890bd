import Verif.Model.PyDk
import Verif.Prop.Wk

/-!
# C168: velocities from Python follow the references last set

Specification: what a program set last, by values: setting a reference velocity is setting the numbers
it has then. Solving changes nothing of it.
-/

namespace Verif.PyDk

open Verif.Tf Verif.Wk

variable {C : Type}

/-- What was set last. -/
structure Want (C : Type) where
  vals : Nat → Dx
  config : C
  tf : Option Qutr
  vel : Option Dx

def want (w : Want C) : Op C → Want C
  | .setTf E => { w with tf := some E }
  | .setVel a => { w with vel := a.map w.vals }
  | .write a d => { w with vals := fun b => if b = a then d else w.vals b }
  | .configure c => { w with config := c }
  | .solve => w

/-- The program uses the vector `dx` of the object not as a reference, and writes to no vector while it
is the reference; `r` is the reference before it. -/
def Tame : Option Nat → List (Op C) → Prop
  | _, [] => True
  | _, .setVel a :: l => a ≠ some 0 ∧ Tame a l
  | r, .write a _ :: l => r ≠ some a ∧ Tame r l
  | r, _ :: l => Tame r l

/-- Poses set are proper. -/
def Proper (l : List (Op C)) : Prop := ∀ E, .setTf E ∈ l → E.Valid

def dadd (a b : Dx) : Dx := ⟨vadd a.v b.v, vadd a.w b.w⟩

/-- The velocity to be solved for: the reference velocity, and the one towards the reference pose. -/
def Goal (gt ga : ℝ) (pose : C → Qutr) (w : Want C) (d : Dx) : Prop :=
  (w.vel ≠ none ∨ w.tf ≠ none) ∧ ∃ e, d = dadd (w.vel.getD ⟨⟨0, 0, 0⟩, ⟨0, 0, 0⟩⟩) e ∧
    match w.tf with
    | none => e = ⟨⟨0, 0, 0⟩, ⟨0, 0, 0⟩⟩
    | some E => dxPos gt ga (pose w.config) E ⟨⟨0, 0, 0⟩, ⟨0, 0, 0⟩⟩ = some e

/-- The object holds what was set. -/
structure Holds (s : St C) (w : Want C) : Prop where
  config : s.config = w.config
  tf : s.tfRef = w.tf
  vel : s.velRef.map s.vecs = w.vel
  vals : ∀ a, a ≠ 0 → s.vecs a = w.vals a
  own : s.velRef ≠ some 0
  valid : ∀ E, w.tf = some E → E.Valid

theorem dadd_zero (d : Dx) : dadd d ⟨⟨0, 0, 0⟩, ⟨0, 0, 0⟩⟩ = d := by
  ext <;> simp [dadd, vadd]

/-- Solving leaves references, configurations and the vectors of the program as they are. -/
theorem C168_frame (gt ga : ℝ) (pose : C → Qutr) (js : C → Dx → List ℝ) (s s' : St C) (q : List ℝ)
    (h : solveVel gt ga pose js s = some (s', q)) :
    s'.config = s.config ∧ s'.tfRef = s.tfRef ∧ s'.velRef = s.velRef ∧
    ∀ a, a ≠ 0 → s'.vecs a = s.vecs a := by
  unfold solveVel at h
  split at h
  · cases h
  · cases hE : s.tfRef with
    | none =>
      rw [hE] at h
      simp only [Option.some.injEq, Prod.mk.injEq] at h
      rw [← h.1]
      exact ⟨rfl, hE.symm ▸ rfl, rfl, fun a ha => Function.update_of_ne ha _ _⟩
    | some E =>
      rw [hE] at h
      obtain ⟨d, _, h2⟩ := Option.map_eq_some_iff.1 h
      simp only [Prod.mk.injEq] at h2
      rw [← h2.1]
      exact ⟨rfl, rfl, rfl, fun a ha => Function.update_of_ne ha _ _⟩

theorem holds_solve {gt ga : ℝ} {pose : C → Qutr} (hp : ∀ c, (pose c).Valid) (js : C → Dx → List ℝ)
    {s : St C} {w : Want C} (H : Holds s w) :
    (solveVel gt ga pose js s = none ↔ w.tf = none ∧ w.vel = none) ∧
    ∀ s' q, solveVel gt ga pose js s = some (s', q) →
      ∃ d, Goal gt ga pose w d ∧ q = js w.config d := by
  obtain ⟨hc, ht, hv, -, -, hok⟩ := H
  have hvn : s.velRef = none ↔ w.vel = none := by rw [← hv]; simp
  have hdx : refDx s = w.vel.getD ⟨⟨0, 0, 0⟩, ⟨0, 0, 0⟩⟩ := by
    rw [← hv, refDx]; cases s.velRef <;> rfl
  simp only [solveVel, hdx, hc, ht]
  cases hE : w.tf with
  | none =>
    cases hV : w.vel with
    | none => simp [hvn.2 hV]
    | some v =>
      have hn : s.velRef ≠ none := fun h => by rw [hvn.1 h] at hV; cases hV
      have : s.velRef.isNone = false := by cases h : s.velRef <;> simp_all
      simp only [this, Option.isNone_none, Bool.and_false]
      refine ⟨by simp, fun s' q h => ?_⟩
      simp only [Bool.false_eq_true, if_false, Option.some.injEq, Prod.mk.injEq] at h
      exact ⟨v, ⟨Or.inl (by simp [hV]), _, by rw [hV, dadd_zero]; rfl, by rw [hE]⟩, h.2.symm⟩
  | some E =>
    obtain ⟨r, hr⟩ := C74_adds gt ga (pose w.config) E (hp _) (hok E hE)
    simp only [Option.isNone_some, Bool.false_and, Bool.false_eq_true, if_false, hr, Option.map_some]
    refine ⟨by simp, fun s' q h => ?_⟩
    simp only [Option.some.injEq, Prod.mk.injEq] at h
    refine ⟨_, ⟨Or.inr (by simp [hE]), r, rfl, ?_⟩, h.2.symm⟩
    rw [hE]
    simp only
    rw [hr]
    congr 1
    ext <;> simp [vadd]

theorem holds_step {gt ga : ℝ} {pose : C → Qutr} (js : C → Dx → List ℝ)
    {s : St C} {w : Want C} (H : Holds s w) (o : Op C)
    (hv : ∀ a, o = .setVel a → a ≠ some 0) (hw : ∀ a d, o = .write a d → s.velRef ≠ some a)
    (hE : ∀ E, o = .setTf E → E.Valid) : Holds (step gt ga pose js s o) (want w o) := by
  obtain ⟨h1, h2, h3, h4, h5, h6⟩ := H
  cases o with
  | setTf E => exact ⟨h1, rfl, h3, h4, h5, fun E' h => by cases h; exact hE E rfl⟩
  | setVel a =>
    refine ⟨h1, h2, ?_, h4, hv a rfl, h6⟩
    cases a with
    | none => rfl
    | some a =>
      have : a ≠ 0 := fun h => hv _ rfl (by rw [h])
      simp [step, want, h4 a this]
  | write a d =>
    have ha := hw a d rfl
    refine ⟨h1, h2, ?_, ?_, h5, h6⟩
    · rw [← show _ = (want w (.write a d)).vel from h3]
      cases hr : s.velRef with
      | none => simp [step, hr]
      | some b =>
        have : b ≠ a := fun h => ha (by rw [hr, h])
        simp [step, hr, this]
    · intro b hb
      by_cases h : b = a
      · subst h; simp [step, want]
      · simp [step, want, h, h4 b hb]
  | configure c => exact ⟨rfl, h2, h3, h4, h5, h6⟩
  | solve =>
    simp only [step, want]
    cases hs : solveVel gt ga pose js s with
    | none => exact ⟨h1, h2, h3, h4, h5, h6⟩
    | some x =>
      obtain ⟨s', q⟩ := x
      obtain ⟨k1, k2, k3, k4⟩ := C168_frame gt ga pose js s s' q hs
      simp only [Option.map_some, Option.getD_some]
      refine ⟨k1.trans h1, k2.trans h2, ?_, fun a ha => (k4 a ha).trans (h4 a ha), by rw [k3]; exact h5, h6⟩
      rw [k3, ← h3]
      cases hr : s.velRef with
      | none => rfl
      | some b =>
        have : b ≠ 0 := fun h => h5 (by rw [hr, h])
        simp [k4 b this]

theorem step_velRef (gt ga : ℝ) (pose : C → Qutr) (js : C → Dx → List ℝ) (s : St C) (o : Op C)
    (h : ∀ a, o ≠ .setVel a) : (step gt ga pose js s o).velRef = s.velRef := by
  cases o with
  | setVel a => exact absurd rfl (h a)
  | solve =>
    simp only [step]
    cases hs : solveVel gt ga pose js s with
    | none => rfl
    | some x => exact (C168_frame gt ga pose js s x.1 x.2 hs).2.2.1
  | _ => rfl

theorem holds_run {gt ga : ℝ} {pose : C → Qutr} (js : C → Dx → List ℝ) (l : List (Op C)) :
    ∀ {s : St C} {w : Want C}, Holds s w → Tame s.velRef l → Proper l →
      Holds (run gt ga pose js s l) (l.foldl want w) := by
  induction l with
  | nil => intro s w H _ _; exact H
  | cons o l ih =>
    intro s w H ht hp
    have hp' : Proper l := fun E h => hp E (List.mem_cons_of_mem _ h)
    have hE : ∀ E, o = .setTf E → E.Valid := fun E h => hp E (by simp [h])
    have hH : ∀ hv hw, Holds (step gt ga pose js s o) (want w o) := fun hv hw => holds_step js H o hv hw hE
    cases o with
    | setVel a =>
      exact ih (hH (by rintro b ⟨⟩; exact ht.1) (by simp)) ht.2 hp'
    | write a d =>
      refine ih (hH (by simp) (by rintro b d' ⟨⟩; exact ht.1)) ?_ hp'
      exact ht.2
    | solve =>
      refine ih (hH (by simp) (by simp)) ?_ hp'
      rw [step_velRef _ _ _ _ _ _ (by simp)]; exact ht
    | setTf E => exact ih (hH (by simp) (by simp)) ht hp'
    | configure c => exact ih (hH (by simp) (by simp)) ht hp'

/-- After any program, solving raises an exception exactly if no reference was set, and otherwise is the
solution for the velocity wanted by the references last set and the current configuration, whatever was
solved before. Missing: programs that write to the vector of the reference velocity, for
which it does not hold (`C168_write_violates`), or use the vector of the object as the reference. -/
theorem C168_solve_partial (gt ga : ℝ) (pose : C → Qutr) (hp : ∀ c, (pose c).Valid)
    (js : C → Dx → List ℝ) (vecs : Nat → Dx) (c : C) (l : List (Op C)) (ht : Tame none l) (hl : Proper l) :
    let s := run gt ga pose js (init vecs c) l
    let w := l.foldl want ⟨vecs, c, none, none⟩
    (solveVel gt ga pose js s = none ↔ w.tf = none ∧ w.vel = none) ∧
    ∀ s' q, solveVel gt ga pose js s = some (s', q) → ∃ d, Goal gt ga pose w d ∧ q = js w.config d := by
  refine holds_solve hp js (holds_run js l ?_ ht hl)
  exact ⟨rfl, rfl, rfl, fun a ha => Function.update_of_ne ha _ _, by simp [init], by simp⟩

/-- Violated: writing to the vector that was set as the reference velocity changes the reference. -/
theorem C168_write_violates :
    ∃ (l : List (Op Unit)) (vecs : Nat → Dx) (s' : St Unit) (q : List ℝ),
      solveVel 1 1 (fun _ => qutrident) (fun _ d => [d.v.x]) (run 1 1 (fun _ => qutrident)
        (fun _ d => [d.v.x]) (init vecs ()) l) = some (s', q) ∧
      (l.foldl want ⟨vecs, (), none, none⟩).vel = some ⟨⟨1, 0, 0⟩, ⟨0, 0, 0⟩⟩ ∧
      (l.foldl want ⟨vecs, (), none, none⟩).tf = none ∧ q ≠ [1] := by
  refine ⟨[.setVel (some 1), .write 1 ⟨⟨2, 0, 0⟩, ⟨0, 0, 0⟩⟩], fun _ => ⟨⟨1, 0, 0⟩, ⟨0, 0, 0⟩⟩, _, _,
    rfl, rfl, rfl, ?_⟩
  simp [run, step, init, refDx]

/-- A program that sets both references, writes to other vectors and solves in between. -/
example : Tame none ([.setVel (some 1), .setTf qutrident, .solve, .write 2 dzero, .setVel (some 2),
      .write 1 dzero, .configure 3, .solve] : List (Op Nat)) ∧
    Proper ([.setVel (some 1), .setTf qutrident, .solve] : List (Op Nat)) := by
  refine ⟨by simp [Tame], ?_⟩
  intro E h
  simp at h
  rw [h]
  norm_num [qutrident, Qutr.Valid, Tf.Unit, qident]

end Verif.PyDk
