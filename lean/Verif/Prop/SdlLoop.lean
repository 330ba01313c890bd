import Verif.Model.SdlLoop
import Verif.Prop.Time
import Mathlib.Algebra.Order.Floor.Ring
import Mathlib.Tactic.Linarith
import Mathlib.Tactic.Ring
import Mathlib.Tactic.FieldSimp

/-! C109: the display loop shows frames in time and hands each event to its handler. -/

namespace Verif.SdlLoop

open Verif.Time

/-! ### What a history of calls says -/

/-- The requests of an observation. -/
def reqUpdate : Obs → Bool
  | .display _ r => r.update
  | .event _ _ _ _ _ r => r.update
  | .spnav u => u
  | _ => false

def reqQuit : Obs → Bool
  | .display _ r => r.quit
  | .event _ _ _ _ _ r => r.quit
  | _ => false

def reqKeys : Obs → List (Int × Fn)
  | .display _ r => r.bindKeys
  | .event _ _ _ _ _ r => r.bindKeys
  | _ => []

def reqEvents : Obs → List (Nat × Fn)
  | .display _ r => r.bindEvents
  | .event _ _ _ _ _ r => r.bindEvents
  | _ => []

/-- There is something new to show: at the start, and if asked for after the last
time that the picture was shown. -/
def pending (h : List Obs) : Bool :=
  h.foldl (fun b o => match o with
    | .swap => false
    | o => b || reqUpdate o) true

/-- Times of the frames. -/
def shown : List Obs → List TS
  | [] => []
  | .display P _ :: h => P.timeNow :: shown h
  | _ :: h => shown h

/-- Time of the last frame. -/
def lastTime (t0 : TS) (h : List Obs) : TS := (shown h).getLast?.getD t0

/-- Events in the order in which they were handled. -/
def handled : List Obs → List Event
  | [] => []
  | .event e _ _ _ _ _ :: h => e :: handled h
  | _ :: h => handled h

/-- The handler that was bound first for `a`. -/
def FirstBound {α} (a : α) (bs : List (α × Fn)) : Option Fn → Prop
  | some f => ∃ l l', bs = l ++ (a, f) :: l' ∧ ∀ b ∈ l, b.1 ≠ a
  | none => ∀ b ∈ bs, b.1 ≠ a

/-- A frame that waits to be shown. -/
def Waiting (h : List Obs) : Prop := ∃ h' P r, h = h' ++ [.display P r] ∧ pending h = true

/-- What holds of each observation after the history `h` of a loop that was called at
time `t0` with the bindings `k0` and `e0` and the time `d` between frames. -/
def Ok (t0 : TS) (d : Int) (e0 : List (Nat × Fn)) (k0 : List (Int × Fn)) (h : List Obs) :
    Obs → Prop
  | .display P _ =>
      h.any reqQuit = false ∧ ¬ Waiting h ∧ P.update = pending h ∧ P.quit = false ∧
      P.timeInitial = t0 ∧ P.timeLast = lastTime t0 h ∧ (P.first = true ↔ shown h = []) ∧
      ∀ e, P.event ≠ .live e
  | .swap => Waiting h
  | .wait now timeout =>
      h.any reqQuit = false ∧ ¬ Waiting h ∧
      timeout = Max.max 0 ((ns (lastTime t0 h) + d - ns now) / 1000000)
  | .event e who P ret cam r =>
      h.any reqQuit = false ∧ (∃ h' now t, h = h' ++ [.wait now t]) ∧
      (e.type = KEYDOWN → FirstBound e.key (k0 ++ h.flatMap reqKeys) who) ∧
      (e.type ≠ KEYDOWN → FirstBound e.type (e0 ++ h.flatMap reqEvents) who) ∧
      P.event = .live e ∧ P.quit = false ∧ P.timeNow = lastTime t0 h ∧ P.timeInitial = t0 ∧
      (cam = true ↔ who = none ∨ ret ≠ 0) ∧ (who = some .quit → r.quit = true)
  | .spnav _ => ¬ Waiting h

/-- All observations of a history are as they should be. -/
inductive Good (t0 : TS) (d : Int) (e0 : List (Nat × Fn)) (k0 : List (Int × Fn)) :
    List Obs → Prop
  | nil : Good t0 d e0 k0 []
  | snoc {h o} : Good t0 d e0 k0 h → Ok t0 d e0 k0 h o → Good t0 d e0 k0 (h ++ [o])

theorem Good.ok {t0 d e0 k0} {h : List Obs} (g : Good t0 d e0 k0 h) {pre o post}
    (e : h = pre ++ o :: post) : Ok t0 d e0 k0 pre o := by
  induction g generalizing pre o post with
  | nil => simp at e
  | @snoc h o' g k ih =>
    rcases List.eq_nil_or_concat post with rfl | ⟨post, o'', rfl⟩
    · have := List.append_inj' e rfl
      obtain ⟨rfl, h2⟩ := this
      cases h2
      exact k
    · have e' : h ++ [o'] = (pre ++ o :: post) ++ [o''] := by rw [e]; simp
      have := List.append_inj' e' rfl
      exact ih this.1

/-! ### Invariant -/

structure Inv {W} (t0 : TS) (d : Int) (e0 : List (Nat × Fn)) (k0 : List (Int × Fn))
    (s : St W) : Prop where
  good : Good t0 d e0 k0 s.trace
  keys : s.keys = k0 ++ s.trace.flatMap reqKeys
  events : s.events = e0 ++ s.trace.flatMap reqEvents
  update : s.P.update = pending s.trace
  quit : s.P.quit = s.trace.any reqQuit
  now : s.P.timeNow = lastTime t0 s.trace
  initial : s.P.timeInitial = t0
  first : s.P.first = true ↔ shown s.trace = []
  ptr : ∀ e, s.P.event ≠ .live e

theorem pending_snoc (h : List Obs) (o : Obs) (ho : o ≠ .swap) :
    pending (h ++ [o]) = (pending h || reqUpdate o) := by
  simp only [pending, List.foldl_append, List.foldl_cons, List.foldl_nil]

theorem pending_swap (h : List Obs) : pending (h ++ [.swap]) = false := by
  simp [pending, List.foldl_append]

theorem shown_append (h h' : List Obs) : shown (h ++ h') = shown h ++ shown h' := by
  induction h with
  | nil => rfl
  | cons o h ih => cases o <;> simp [shown, ih]

theorem handled_append (h h' : List Obs) : handled (h ++ h') = handled h ++ handled h' := by
  induction h with
  | nil => rfl
  | cons o h ih => cases o <;> simp [handled, ih]

theorem lastTime_snoc (t0 : TS) (h : List Obs) (o : Obs) (ho : ∀ P r, o ≠ .display P r) :
    lastTime t0 (h ++ [o]) = lastTime t0 h := by
  have : shown [o] = [] := by
    cases o with
    | display P r => exact absurd rfl (ho P r)
    | _ => rfl
  rw [lastTime, shown_append, this, List.append_nil]; rfl

theorem shown_snoc (h : List Obs) (o : Obs) (ho : ∀ P r, o ≠ .display P r) :
    shown (h ++ [o]) = shown h := by
  have : shown [o] = [] := by
    cases o with
    | display P r => exact absurd rfl (ho P r)
    | _ => rfl
  rw [shown_append, this, List.append_nil]

theorem not_waiting (h : List Obs) (o : Obs) (ho : ∀ P r, o ≠ .display P r) :
    ¬ Waiting (h ++ [o]) := by
  rintro ⟨h', P, r, e, -⟩
  have := List.append_inj' e rfl
  exact ho P r (List.singleton_inj.1 this.2)

theorem search_first {α} [DecidableEq α] (a : α) (bs : List (α × Fn)) :
    FirstBound a bs (search a bs) := by
  induction bs with
  | nil => simp [search, FirstBound]
  | cons b bs ih =>
    simp only [search]
    split
    · rename_i h
      subst h
      exact ⟨[], bs, rfl, by simp⟩
    · rename_i h
      have hb : b.1 ≠ a := fun e => h e.symm
      cases hs : search a bs with
      | none =>
        rw [hs] at ih
        intro x hx
        rcases List.mem_cons.1 hx with rfl | hx
        · exact hb
        · exact ih x hx
      | some f =>
        rw [hs] at ih
        obtain ⟨l, l', e, k⟩ := ih
        refine ⟨b :: l, l', by rw [e]; rfl, ?_⟩
        intro x hx
        rcases List.mem_cons.1 hx with rfl | hx
        · exact hb
        · exact k x hx

theorem Inv.snoc {W} {t0 d e0 k0} {s s' : St W} {o : Obs} (i : Inv t0 d e0 k0 s)
    (ho : ∀ P r, o ≠ .display P r) (hs : o ≠ .swap) (ok : Ok t0 d e0 k0 s.trace o)
    (ht : s'.trace = s.trace ++ [o]) (hk : s'.keys = s.keys ++ reqKeys o)
    (he : s'.events = s.events ++ reqEvents o)
    (hu : s'.P.update = (s.P.update || reqUpdate o))
    (hq : s'.P.quit = (s.P.quit || reqQuit o))
    (hn : s'.P.timeNow = s.P.timeNow) (hi : s'.P.timeInitial = s.P.timeInitial)
    (hf : s'.P.first = s.P.first) (hp : ∀ e, s'.P.event ≠ .live e) : Inv t0 d e0 k0 s' where
  good := by rw [ht]; exact .snoc i.good ok
  keys := by rw [hk, ht, i.keys]; simp [List.flatMap_append]
  events := by rw [he, ht, i.events]; simp [List.flatMap_append]
  update := by rw [hu, ht, pending_snoc _ _ hs, i.update]
  quit := by rw [hq, ht, i.quit]; simp [List.any_append]
  now := by rw [hn, ht, lastTime_snoc _ _ _ ho, i.now]
  initial := by rw [hi, i.initial]
  first := by rw [hf, ht, shown_snoc _ _ ho, i.first]
  ptr := hp

theorem dead_ne : ∀ e, EvPtr.dead ≠ .live e := by simp

/-- One event. -/
theorem handle_inv {W} {A : App W} {t0 d e0 k0} {s : St W} (e : Event)
    (i : Inv t0 d e0 k0 s) (hq : s.P.quit = false)
    (hw : ∃ h' now t, s.trace = h' ++ [.wait now t]) :
    Inv t0 d e0 k0 { handle A s e with P := { (handle A s e).P with event := .dead } } ∧
    ∃ o, (handle A s e).trace = s.trace ++ [o] ∧ handled [o] = [e] ∧ ∀ P r, o ≠ .display P r := by
  obtain ⟨who, hwho⟩ : ∃ who, who =
      if e.type = KEYDOWN then search e.key s.keys else search e.type s.events := ⟨_, rfl⟩
  have w1 : e.type = KEYDOWN → FirstBound e.key (k0 ++ s.trace.flatMap reqKeys) who := by
    intro h
    rw [hwho, if_pos h, ← i.keys]; exact search_first _ _
  have w2 : e.type ≠ KEYDOWN → FirstBound e.type (e0 ++ s.trace.flatMap reqEvents) who := by
    intro h
    rw [hwho, if_neg h, ← i.events]; exact search_first _ _
  have hq' : s.trace.any reqQuit = false := by rw [← i.quit, hq]
  obtain ⟨x, hx⟩ : ∃ x, x = answer A who s.w e { s.P with event := .live e } := ⟨_, rfl⟩
  have x1 : who = none → x.2.1 ≠ 0 := by
    intro h; rw [hx, h]; exact (by decide : (-1 : Int) ≠ 0)
  have x2 : who = some .quit → x.2.2.quit = true := by
    intro h; rw [hx, h]; rfl
  have hh : handle A s e =
      if x.2.1 ≠ 0 then
        let s' := ({ s with P := { s.P with event := .live e } } : St W).ask x.1 x.2.2
        let y := A.camera s'.w e
        { s' with
          w := y.1
          P := { s'.P with update := s'.P.update || y.2 }
          trace := s.trace ++ [.event e who { s.P with event := .live e } x.2.1 true
            { x.2.2 with update := x.2.2.update || y.2 }] }
      else { ({ s with P := { s.P with event := .live e } } : St W).ask x.1 x.2.2 with
          trace := s.trace ++ [.event e who { s.P with event := .live e } x.2.1 false x.2.2] } := by
    subst hx; subst hwho; rfl
  rw [hh]
  by_cases h0 : x.2.1 ≠ 0
  · rw [if_pos h0]
    refine ⟨Inv.snoc i (o := .event e who { s.P with event := .live e } x.2.1 true
      { x.2.2 with update := x.2.2.update || (A.camera x.1 e).2 }) (by simp) (by simp) ?_ rfl rfl rfl ?_ rfl
      rfl rfl rfl dead_ne, ⟨_, rfl, rfl, (by simp)⟩⟩
    · exact ⟨hq', hw, w1, w2, rfl, hq, i.now, i.initial, by simp [h0], x2⟩
    · simp [St.ask, reqUpdate, Bool.or_assoc]
  · rw [if_neg h0]
    refine ⟨Inv.snoc i (o := .event e who { s.P with event := .live e } x.2.1 false x.2.2)
      (by simp) (by simp) ?_ rfl rfl rfl rfl rfl rfl rfl rfl dead_ne, ⟨_, rfl, rfl, (by simp)⟩⟩
    refine ⟨hq', hw, w1, w2, rfl, hq, i.now, i.initial, ?_, x2⟩
    simp only [Bool.false_eq_true, false_iff, not_or]
    exact ⟨fun h => h0 (x1 h), h0⟩

/-- The loop that waits for events. -/
theorem inner_inv {W} {A : App W} {t0 e0 k0} {next delta : TS} (ins : List (TS × Option Event))
    (timeout : Int) (s s' : St W) (i : Inv t0 (ns delta) e0 k0 s) (hw : ¬ Waiting s.trace)
    (hn : ns next = ns (lastTime t0 s.trace) + ns delta)
    (h : inner A next ins timeout s = some s') :
    Inv t0 (ns delta) e0 k0 s' ∧ ¬ Waiting s'.trace ∧
    (∃ l, s'.trace = s.trace ++ l ∧ handled l = ins.filterMap Prod.snd ∧ shown l = []) ∧
    (ins = [] → 0 < timeout → s.P.quit = true) ∧
    (∀ now oe, ins.getLast? = some (now, oe) → s'.P.quit = false →
      (ns next - ns now) / 1000000 ≤ 0) := by
  induction ins generalizing timeout s with
  | nil =>
    simp only [inner] at h
    split at h
    · cases h
    · rename_i hc
      cases h
      refine ⟨i, hw, ⟨[], by simp, rfl, rfl⟩, ?_, by simp⟩
      intro _ ht
      simpa [ht] using hc
  | cons x ins ih =>
    obtain ⟨now, oe⟩ := x
    simp only [inner] at h
    split at h
    · rename_i hc
      simp only [Bool.and_eq_true, Bool.not_eq_true', decide_eq_true_eq] at hc
      obtain ⟨hq, ht⟩ := hc
      obtain ⟨n1, -⟩ := makeNorm_spec (next.sec - now.sec) (next.nsec - now.nsec)
      obtain ⟨-, -, n3, n4⟩ := C17_add_sub next now
      have hm : msec (sub next now) = (ns next - ns now) / 1000000 := by
        rw [(C17_units _ n3).2, n4]
      obtain ⟨T, hT⟩ : ∃ T, T = msec (sub next now) := ⟨_, rfl⟩
      rw [← hT] at h hm
      have hq' : s.trace.any reqQuit = false := by rw [← i.quit, hq]
      have i1 : Inv t0 (ns delta) e0 k0
          { s with trace := s.trace ++ [.wait now (if T < 0 then 0 else T)] } := by
        refine Inv.snoc i (o := .wait now (if T < 0 then 0 else T)) (by simp) (by simp) ?_ rfl
          (by simp [reqKeys]) (by simp [reqEvents]) (by simp [reqUpdate]) (by simp [reqQuit])
          rfl rfl rfl i.ptr
        refine ⟨hq', hw, ?_⟩
        rw [← hn, ← hm]
        split <;> omega
      have i2 : ∃ s2 : St W,
          inner A next ins T s2 = some s' ∧ Inv t0 (ns delta) e0 k0 s2 ∧ ¬ Waiting s2.trace ∧
          ∃ l, s2.trace = s.trace ++ l ∧ handled l = oe.toList ∧ shown l = [] := by
        cases oe with
        | none =>
          refine ⟨_, h, ?_, not_waiting _ _ (by simp), [_], rfl, rfl, rfl⟩
          exact ⟨i1.good, i1.keys, i1.events, i1.update, i1.quit, i1.now, i1.initial, i1.first, dead_ne⟩
        | some e =>
          obtain ⟨j1, o, j2, j3, j4⟩ := handle_inv (A := A) e i1 hq ⟨_, _, _, rfl⟩
          refine ⟨_, h, j1, ?_, [.wait now (if T < 0 then 0 else T), o], ?_, ?_, ?_⟩
          · show ¬ Waiting (handle A _ e).trace
            rw [j2]; exact not_waiting _ _ j4
          · show (handle A _ e).trace = _
            rw [j2]; simp
          · exact j3
          · exact shown_snoc [] o j4
      obtain ⟨s2, h2, i2, hw2, l, hl1, hl2, hl3⟩ := i2
      have hlast : lastTime t0 s2.trace = lastTime t0 s.trace := by
        rw [hl1, lastTime, shown_append, hl3, List.append_nil]; rfl
      obtain ⟨a1, a2, ⟨l', b1, b2, b3⟩, a4, a5⟩ := ih T s2 i2 hw2 (by rw [hlast, hn]) h2
      refine ⟨a1, a2, ⟨l ++ l', by rw [b1, hl1, List.append_assoc], ?_, ?_⟩, by simp, ?_⟩
      · rw [handled_append, hl2, b2]
        cases oe <;> rfl
      · rw [shown_append, hl3, b3]; rfl
      · intro n o hl hq2
        cases ins with
        | nil =>
          simp only [List.getLast?_singleton, Option.some.injEq, Prod.mk.injEq] at hl
          obtain ⟨rfl, rfl⟩ := hl
          by_contra hpos
          have := a4 rfl (by rw [hm]; omega)
          simp only [inner] at h2
          split at h2
          · cases h2
          · cases h2
            rw [this] at hq2; cases hq2
        | cons y ins =>
          exact a5 n o (by rw [List.getLast?_cons_cons] at hl; exact hl) hq2
    · cases h

theorem shown_display (t0 : TS) (h : List Obs) (P : Params) (r : Req) :
    lastTime t0 (h ++ [.display P r]) = P.timeNow := by
  rw [lastTime, shown_append]; simp [shown]

/-- One turn. -/
theorem frame_inv {W} {A : App W} {t0 e0 k0} {now delta : TS} (ins : List (TS × Option Event))
    (s s' : St W) (i : Inv t0 (ns delta) e0 k0 s) (hw : ¬ Waiting s.trace) (hq : s.P.quit = false)
    (h : frame A delta now ins s = some s') :
    Inv t0 (ns delta) e0 k0 s' ∧ ¬ Waiting s'.trace ∧
    (∃ l, s'.trace = s.trace ++ l ∧ handled l = ins.filterMap Prod.snd ∧ shown l = [now]) ∧
    (s'.P.quit = false → ∃ n oe, ins.getLast? = some (n, oe) ∧
      (ns now + ns delta - ns n) / 1000000 ≤ 0) := by
  obtain ⟨P, hP⟩ : ∃ P, P = { s.P with timeLast := s.P.timeNow, timeNow := now } := ⟨_, rfl⟩
  obtain ⟨x, hx⟩ : ∃ x, x = A.display s.w P := ⟨_, rfl⟩
  obtain ⟨s1, hs1⟩ : ∃ s1 : St W, s1 = { (({ s with P := P } : St W).ask x.1 x.2) with
      P := { (({ s with P := P } : St W).ask x.1 x.2).P with first := false }
      trace := s.trace ++ [.display P x.2] } := ⟨_, rfl⟩
  obtain ⟨s2, hs2⟩ : ∃ s2 : St W, s2 = if s1.P.update then
      { s1 with P := { s1.P with update := false }, trace := s1.trace ++ [.swap] } else s1 :=
    ⟨_, rfl⟩
  have hf : frame A delta now ins s = match inner A (add now delta) ins 1 s2 with
      | none => none
      | some s => some { s with
          w := (A.spnav s.w).1
          P := { s.P with update := s.P.update || (A.spnav s.w).2 }
          trace := s.trace ++ [.spnav (A.spnav s.w).2] } := by
    subst hs2; subst hs1; subst hx; subst hP; rfl
  rw [hf] at h
  have hq' : s.trace.any reqQuit = false := by rw [← i.quit, hq]
  have i1 : Inv t0 (ns delta) e0 k0 s1 := by
    have ok : Ok t0 (ns delta) e0 k0 s.trace (.display P x.2) := by
      subst hP
      exact ⟨hq', hw, i.update, hq, i.initial, i.now, i.first, i.ptr⟩
    subst hs1
    constructor
    · exact .snoc i.good ok
    · simp [St.ask, i.keys, reqKeys]
    · simp [St.ask, i.events, reqEvents]
    · show (P.update || x.2.update) = pending (s.trace ++ [.display P x.2])
      rw [pending_snoc _ _ (by simp), ← i.update, hP]; rfl
    · show (P.quit || x.2.quit) = (s.trace ++ [Obs.display P x.2]).any reqQuit
      rw [List.any_append, ← i.quit, hP]; simp [reqQuit]
    · exact (shown_display t0 s.trace P x.2).symm
    · show P.timeInitial = _
      rw [hP]; exact i.initial
    · show false = true ↔ shown (s.trace ++ [.display P x.2]) = []
      rw [shown_append]; simp [shown]
    · show ∀ e, P.event ≠ _
      rw [hP]; exact i.ptr
  have t1 : s1.trace = s.trace ++ [.display P x.2] := by rw [hs1]
  have n1 : lastTime t0 s1.trace = now := by rw [t1, shown_display, hP]
  have i2 : Inv t0 (ns delta) e0 k0 s2 ∧ ¬ Waiting s2.trace ∧ lastTime t0 s2.trace = now ∧
      ∃ l, s2.trace = s.trace ++ l ∧ handled l = [] ∧ shown l = [now] := by
    have hPn : P.timeNow = now := by rw [hP]
    cases hu : s1.P.update with
    | false =>
      rw [hu] at hs2
      simp only [Bool.false_eq_true, if_false] at hs2
      rw [hs2]
      refine ⟨i1, ?_, n1, _, t1, rfl, by simp [shown, hPn]⟩
      rintro ⟨_, _, _, _, k⟩
      rw [← i1.update, hu] at k; cases k
    | true =>
      rw [hu] at hs2
      simp only [if_true] at hs2
      rw [hs2]
      refine ⟨?_, not_waiting _ _ (by simp), ?_, [.display P x.2, .swap], by simp [t1], rfl,
        by simp [shown, hPn]⟩
      · constructor
        · refine .snoc i1.good ?_
          exact ⟨_, _, _, t1, by rw [← i1.update, hu]⟩
        · show s1.keys = _
          rw [i1.keys]; simp [reqKeys]
        · show s1.events = _
          rw [i1.events]; simp [reqEvents]
        · show false = _
          rw [pending_swap]
        · show s1.P.quit = _
          rw [i1.quit]; simp [List.any_append, reqQuit]
        · show s1.P.timeNow = _
          rw [lastTime_snoc _ _ _ (by simp), i1.now]
        · exact i1.initial
        · show s1.P.first = true ↔ _
          rw [shown_snoc _ _ (by simp)]; exact i1.first
        · exact i1.ptr
      · show lastTime t0 (s1.trace ++ [.swap]) = now
        rw [lastTime_snoc _ _ _ (by simp), n1]
  obtain ⟨i2, hw2, n2, l, hl1, hl2, hl3⟩ := i2
  have hnext : ns (add now delta) = ns now + ns delta := (C17_add_sub now delta).2.1
  cases hi : inner A (add now delta) ins 1 s2 with
  | none => rw [hi] at h; cases h
  | some s3 =>
    rw [hi] at h
    simp only [Option.some.injEq] at h
    obtain ⟨a1, a2, ⟨l', b1, b2, b3⟩, a4, a5⟩ := inner_inv ins 1 s2 s3 i2 hw2 (by rw [hnext, n2]) hi
    subst h
    refine ⟨?_, not_waiting _ _ (by simp), ⟨l ++ l' ++ [.spnav (A.spnav s3.w).2], ?_, ?_, ?_⟩, ?_⟩
    · exact Inv.snoc a1 (o := .spnav (A.spnav s3.w).2) (by simp) (by simp) a2 rfl (by simp [reqKeys])
        (by simp [reqEvents]) rfl (by simp [reqQuit]) rfl rfl rfl a1.ptr
    · show s3.trace ++ _ = _
      rw [b1, hl1]; simp
    · rw [handled_append, handled_append, hl2, b2]; simp [handled]
    · rw [shown_append, shown_append, hl3, b3]; simp [shown]
    · intro hq3
      have hq3 : s3.P.quit = false := hq3
      cases hg : ins.getLast? with
      | none =>
        have := List.getLast?_eq_none_iff.1 hg
        subst this
        have hq2 := a4 rfl (by omega)
        have hrun : inner A (add now delta) [] 1 s2 = some s3 := hi
        simp only [inner] at hrun
        split at hrun
        · cases hrun
        · cases hrun
          rw [hq2] at hq3; cases hq3
      | some y =>
        obtain ⟨n, oe⟩ := y
        exact ⟨n, oe, rfl, by rw [← hnext]; exact a5 n oe hg hq3⟩

theorem run_inv {W} {A : App W} {t0 e0 k0} {delta : TS} (fs : List (TS × List (TS × Option Event)))
    (s s' : St W) (i : Inv t0 (ns delta) e0 k0 s) (hw : ¬ Waiting s.trace)
    (h : run A delta fs s = some s') :
    Inv t0 (ns delta) e0 k0 s' ∧ ¬ Waiting s'.trace ∧
    handled s'.trace = handled s.trace ++ fs.flatMap (fun f => f.2.filterMap Prod.snd) ∧
    shown s'.trace = shown s.trace ++ fs.map Prod.fst := by
  induction fs generalizing s with
  | nil => cases h; exact ⟨i, hw, by simp, by simp⟩
  | cons f fs ih =>
    obtain ⟨now, ins⟩ := f
    simp only [run] at h
    split at h
    · cases h
    · rename_i hq
      split at h
      · cases h
      · rename_i s1 hf
        obtain ⟨a1, a2, ⟨l, a3, a4, a5⟩, -⟩ := frame_inv ins s s1 i hw (by simpa using hq) hf
        obtain ⟨b1, b2, b3, b4⟩ := ih s1 a1 a2 h
        refine ⟨b1, b2, ?_, ?_⟩
        · rw [b3, a3, handled_append, a4]; simp
        · rw [b4, a3, shown_append, a5]; simp

theorem inv0 {W} (t : TS) (d : Int) (w : W) (e0 : List (Nat × Fn)) (k0 : List (Int × Fn)) :
    Inv t d e0 k0 (⟨w, params0 t, e0, k0, []⟩ : St W) ∧
    ¬ Waiting (⟨w, params0 t, e0, k0, []⟩ : St W).trace := by
  constructor
  · constructor <;> simp [params0, pending, lastTime, shown]
    exact .nil
  · rintro ⟨h', P, r, e, -⟩
    simp at e

theorem loop_inv {W} {A : App W} {fps : ℝ} {t : TS} {w : W} {e0 k0}
    {fs : List (TS × List (TS × Option Event))} {s : St W}
    (h : displayLoop A fps t w e0 k0 fs = some s) :
    Inv t (ns (sec2timespec (1 / fps))) e0 k0 s ∧ ¬ Waiting s.trace ∧
    handled s.trace = fs.flatMap (fun f => f.2.filterMap Prod.snd) ∧
    shown s.trace = fs.map Prod.fst := by
  obtain ⟨i, hw⟩ := inv0 t (ns (sec2timespec (1 / fps))) w e0 k0
  have := run_inv fs _ s i hw h
  simpa [handled, shown] using this

/-! ### Events -/

/-- C109: each event is handled once, in the order of arrival; it goes to the handler
bound first for its key or type among all that are bound at that time, which finds it in the
parameters, and to the camera if there is no handler or it declines. Partial: a key that is
pressed goes to handlers of keys only. -/
theorem C109_events_partial {W} (A : App W) (fps : ℝ) (t : TS) (w : W)
    (e0 : List (Nat × Fn)) (k0 : List (Int × Fn)) (fs : List (TS × List (TS × Option Event)))
    (s : St W) (h : displayLoop A fps t w e0 k0 fs = some s) :
    handled s.trace = fs.flatMap (fun f => f.2.filterMap Prod.snd) ∧
    ∀ pre e who P ret cam r post, s.trace = pre ++ .event e who P ret cam r :: post →
      (e.type = KEYDOWN → FirstBound e.key (k0 ++ pre.flatMap reqKeys) who) ∧
      (e.type ≠ KEYDOWN → FirstBound e.type (e0 ++ pre.flatMap reqEvents) who) ∧
      P.event = .live e ∧ (cam = true ↔ who = none ∨ ret ≠ 0) := by
  obtain ⟨i, -, h2, -⟩ := loop_inv h
  refine ⟨h2, ?_⟩
  intro pre e who P ret cam r post ht
  obtain ⟨-, -, a3, a4, a5, -, -, -, a9, -⟩ := i.good.ok ht
  exact ⟨a3, a4, a5, a9⟩

/-- C109: the loop handles nothing and shows nothing after it was asked to quit, and
returns if and only if it was asked. -/
theorem C109_quit {W} (A : App W) (fps : ℝ) (t : TS) (w : W)
    (e0 : List (Nat × Fn)) (k0 : List (Int × Fn)) (fs : List (TS × List (TS × Option Event)))
    (s : St W) (h : displayLoop A fps t w e0 k0 fs = some s) :
    (s.P.quit = true ↔ ∃ o ∈ s.trace, reqQuit o = true) ∧
    ∀ pre o post, s.trace = pre ++ o :: post → reqQuit o = true →
      handled post = [] ∧ shown post = [] := by
  obtain ⟨i, -⟩ := loop_inv h
  refine ⟨by rw [i.quit, List.any_eq_true], ?_⟩
  intro pre o post ht ho
  have key : ∀ (l : List Obs) (b : List Obs), s.trace = pre ++ o :: (b ++ l) →
      handled l = [] ∧ shown l = [] := by
    intro l
    induction l with
    | nil => intro b _; exact ⟨rfl, rfl⟩
    | cons x l ih =>
      intro b hb
      have hb' : s.trace = (pre ++ o :: b) ++ x :: l := by rw [hb]; simp
      have hany : (pre ++ o :: b).any reqQuit = true := by
        rw [List.any_eq_true]; exact ⟨o, by simp, ho⟩
      obtain ⟨c1, c2⟩ := ih (b ++ [x]) (by rw [hb]; simp)
      have ok := i.good.ok hb'
      cases x with
      | display P r => exact absurd (hany.symm.trans ok.1) (by simp)
      | event e who P ret cam r => exact absurd (hany.symm.trans ok.1) (by simp)
      | swap => exact ⟨c1, c2⟩
      | wait n t' => exact ⟨c1, c2⟩
      | spnav u => exact ⟨c1, c2⟩
  exact key post [] ht

/-- C109: closing the window ends the loop with the handlers of the library. -/
theorem C109_close {W} (A : App W) (fps : ℝ) (t : TS) (w : W)
    (e1 : List (Nat × Fn)) (k0 : List (Int × Fn)) (fs : List (TS × List (TS × Option Event)))
    (s : St W) (h : displayLoop A fps t w (uiEvents ++ e1) k0 fs = some s)
    (hc : ∃ f ∈ fs, ∃ x ∈ f.2, ∃ e, x.2 = some e ∧ e.type = QUIT) : s.P.quit = true := by
  obtain ⟨i, -, h2, -⟩ := loop_inv h
  obtain ⟨f, hf, x, hx, e, hxe, he⟩ := hc
  have hm : e ∈ handled s.trace := by
    rw [h2, List.mem_flatMap]
    exact ⟨f, hf, List.mem_filterMap.2 ⟨x, hx, hxe⟩⟩
  have key : ∀ l : List Obs, e ∈ handled l → ∃ who P ret cam r, .event e who P ret cam r ∈ l := by
    intro l
    induction l with
    | nil => intro h; cases h
    | cons o l ih =>
      intro h
      cases o with
      | event e' who P ret cam r =>
        rcases List.mem_cons.1 h with rfl | h
        · exact ⟨who, P, ret, cam, r, by simp⟩
        · obtain ⟨a, b, c, d, f, g⟩ := ih h
          exact ⟨a, b, c, d, f, List.mem_cons_of_mem _ g⟩
      | _ =>
        obtain ⟨a, b, c, d, f, g⟩ := ih h
        exact ⟨a, b, c, d, f, List.mem_cons_of_mem _ g⟩
  obtain ⟨who, P, ret, cam, r, ho⟩ := key _ hm
  obtain ⟨pre, post, hp⟩ := List.append_of_mem ho
  have ok := i.good.ok hp
  obtain ⟨-, -, -, a4, -, -, -, -, -, a10⟩ := ok
  have a4 := a4 (by rw [he]; decide)
  rw [i.quit, List.any_eq_true]
  refine ⟨_, ho, ?_⟩
  apply a10
  cases who with
  | none => exact absurd he.symm (a4 (QUIT, .quit) (by simp [uiEvents]))
  | some g =>
    obtain ⟨l, l', e1', hl⟩ := a4
    cases l with
    | nil =>
      simp only [uiEvents, List.cons_append, List.nil_append, List.cons.injEq] at e1'
      rw [(Prod.mk.injEq ..).mp e1'.1 |>.2]
    | cons b l =>
      simp only [uiEvents, List.cons_append, List.nil_append, List.cons.injEq] at e1'
      have := hl b (by simp)
      rw [← e1'.1] at this
      exact absurd he.symm this

/-! ### Frames -/

/-- C109: there is one frame per turn, with the times of this frame, the one before and the
start. -/
theorem C109_frames {W} (A : App W) (fps : ℝ) (t : TS) (w : W)
    (e0 : List (Nat × Fn)) (k0 : List (Int × Fn)) (fs : List (TS × List (TS × Option Event)))
    (s : St W) (h : displayLoop A fps t w e0 k0 fs = some s) :
    shown s.trace = fs.map Prod.fst ∧
    ∀ pre P r post, s.trace = pre ++ .display P r :: post →
      P.timeInitial = t ∧ P.timeLast = lastTime t pre ∧ (P.first = true ↔ shown pre = []) := by
  obtain ⟨i, -, -, h3⟩ := loop_inv h
  refine ⟨h3, ?_⟩
  intro pre P r post ht
  obtain ⟨-, -, -, -, a5, a6, a7, -⟩ := i.good.ok ht
  exact ⟨a5, a6, a7⟩

/-- C109: a frame is told whether an update was asked for, and the picture is shown after it
exactly if so, or if it asks itself; the picture is shown at no other time. -/
theorem C109_shown {W} (A : App W) (fps : ℝ) (t : TS) (w : W)
    (e0 : List (Nat × Fn)) (k0 : List (Int × Fn)) (fs : List (TS × List (TS × Option Event)))
    (s : St W) (h : displayLoop A fps t w e0 k0 fs = some s) :
    (∀ pre P r post, s.trace = pre ++ .display P r :: post →
      P.update = pending pre ∧
      ((∃ post', post = .swap :: post') ↔ (pending pre = true ∨ r.update = true))) ∧
    (∀ pre post, s.trace = pre ++ .swap :: post → ∃ pre' P r, pre = pre' ++ [.display P r]) := by
  obtain ⟨i, hw, -⟩ := loop_inv h
  constructor
  · intro pre P r post ht
    obtain ⟨-, -, a3, -⟩ := i.good.ok ht
    refine ⟨a3, ?_⟩
    have hp : pending (pre ++ [.display P r]) = (pending pre || r.update) :=
      pending_snoc _ _ (by simp)
    cases post with
    | nil =>
      have : ¬ Waiting (pre ++ [.display P r]) := by rw [← ht]; exact hw
      constructor
      · rintro ⟨_, k⟩; cases k
      · intro k
        exact absurd ⟨pre, P, r, rfl, by rw [hp]; simpa using k⟩ this
    | cons o post =>
      have ok := i.good.ok (pre := pre ++ [.display P r]) (o := o) (post := post) (by rw [ht]; simp)
      have hwait : ∀ k : ¬ Waiting (pre ++ [.display P r]),
          ¬ (pending pre = true ∨ r.update = true) := by
        intro k hu
        exact k ⟨pre, P, r, rfl, by rw [hp]; simpa using hu⟩
      cases o with
      | swap =>
        obtain ⟨_, _, _, _, k⟩ := ok
        rw [hp] at k
        exact ⟨fun _ => by simpa using k, fun _ => ⟨_, rfl⟩⟩
      | display P' r' =>
        exact ⟨(by rintro ⟨_, k⟩; cases k), fun k => absurd k (hwait ok.2.1)⟩
      | wait n t' =>
        exact ⟨(by rintro ⟨_, k⟩; cases k), fun k => absurd k (hwait ok.2.1)⟩
      | spnav u =>
        exact ⟨(by rintro ⟨_, k⟩; cases k), fun k => absurd k (hwait ok)⟩
      | event e who P' ret cam r' =>
        obtain ⟨_, ⟨h', n, t', k⟩, _⟩ := ok
        have := (List.append_inj' k rfl).2
        cases this
  · intro pre post ht
    obtain ⟨pre', P, r, k, -⟩ := i.good.ok ht
    exact ⟨pre', P, r, k⟩

/-- `aa_tm_sec2timespec` cuts off to nanoseconds. -/
theorem sec2timespec_ns {t : ℝ} (ht : 0 ≤ t) : ns (sec2timespec t) = ⌊t * 1000000000⌋ := by
  have h1 : (0 : ℝ) ≤ t - ⌊t⌋ := sub_nonneg.2 (Int.floor_le t)
  have h2 : (0 : ℝ) ≤ (t - ⌊t⌋) * 1000000000 := by positivity
  simp only [sec2timespec, if_pos ht, if_pos h2]
  rw [(makeNorm_spec _ _).2]
  have : t * 1000000000 = (t - ⌊t⌋) * 1000000000 + ((⌊t⌋ * 1000000000 : ℤ) : ℝ) := by
    push_cast; ring
  rw [this, Int.floor_add_intCast]
  omega

/-- All readings of the clock in order. -/
def readings (fs : List (TS × List (TS × Option Event))) : List TS :=
  fs.flatMap fun f => f.1 :: f.2.map Prod.fst

/-- C109: the loop never waits past the time of the next frame. -/
theorem C109_wait {W} (A : App W) (fps : ℝ) (t : TS) (w : W) (hf : 0 < fps)
    (e0 : List (Nat × Fn)) (k0 : List (Int × Fn)) (fs : List (TS × List (TS × Option Event)))
    (s : St W) (h : displayLoop A fps t w e0 k0 fs = some s)
    (pre : List Obs) (now : TS) (timeout : Int) (post : List Obs)
    (ht : s.trace = pre ++ .wait now timeout :: post) :
    0 ≤ timeout ∧ (timeout = 0 ∨
      ns now + timeout * 1000000 ≤ ns (lastTime t pre) + ⌊1 / fps * 1000000000⌋) := by
  obtain ⟨i, -⟩ := loop_inv h
  obtain ⟨-, -, a⟩ := i.good.ok ht
  rw [sec2timespec_ns (by positivity)] at a
  omega

theorem run_append {W} (A : App W) (delta : TS) (f1 f2) (s s' : St W)
    (h : run A delta (f1 ++ f2) s = some s') :
    ∃ s1, run A delta f1 s = some s1 ∧ run A delta f2 s1 = some s' := by
  induction f1 generalizing s with
  | nil => exact ⟨s, rfl, h⟩
  | cons f f1 ih =>
    obtain ⟨now, ins⟩ := f
    simp only [List.cons_append, run] at h ⊢
    split at h
    · cases h
    · rename_i hq
      rw [if_neg hq]
      split at h
      · cases h
      · rename_i s1 hf
        exact ih s1 h

/-- C109: frames follow each other after the time between frames, up to a millisecond. -/
theorem C109_period {W} (A : App W) (fps : ℝ) (t : TS) (w : W) (hf : 0 < fps)
    (e0 : List (Nat × Fn)) (k0 : List (Int × Fn)) (fs : List (TS × List (TS × Option Event)))
    (s : St W) (h : displayLoop A fps t w e0 k0 fs = some s)
    (hm : ((readings fs).map ns).Pairwise (· ≤ ·))
    (pre post : List (TS × List (TS × Option Event))) (t1 t2 : TS) (i1 i2)
    (he : fs = pre ++ (t1, i1) :: (t2, i2) :: post) :
    ns t1 + ⌊1 / fps * 1000000000⌋ - 1000000 < ns t2 := by
  subst he
  obtain ⟨i, hw⟩ := inv0 t (ns (sec2timespec (1 / fps))) w e0 k0
  obtain ⟨s1, r1, r2⟩ := run_append _ _ _ _ _ _ h
  obtain ⟨a1, a2, -⟩ := run_inv pre _ s1 i hw r1
  simp only [run] at r2
  split at r2
  · cases r2
  rename_i q1
  split at r2
  · cases r2
  rename_i s2 f1
  split at r2
  · cases r2
  rename_i q2
  obtain ⟨-, -, -, a4⟩ := frame_inv i1 s1 s2 a1 a2 (by simpa using q1) f1
  obtain ⟨n, oe, hl, hn⟩ := a4 (by simpa using q2)
  have hle : ns n ≤ ns t2 := by
    obtain ⟨i1', hi1⟩ := List.getLast?_eq_some_iff.1 hl
    have : readings (pre ++ (t1, i1) :: (t2, i2) :: post) =
        (readings pre ++ t1 :: i1'.map Prod.fst) ++ n :: t2 :: (i2.map Prod.fst ++ readings post) := by
      simp [readings, hi1]
    rw [this, List.map_append, List.pairwise_append] at hm
    have hm2 := hm.2.1
    simp only [List.map_cons, List.pairwise_cons] at hm2
    exact hm2.1 (ns t2) (by simp)
  rw [sec2timespec_ns (by positivity)] at hn
  omega

/-! ### Violations and cases -/

/-- A program that does nothing, with handlers that accept. -/
def idle : App Nat where
  handler _ w _ _ := (w + 1, 0, Req.none)
  display w _ := (w, Req.none)
  camera w _ := (w, false)
  fullscreen w _ := w
  spnav w := (w, false)

theorem one_second : sec2timespec (1 / 1) = ⟨1, 0⟩ := by
  have h : (0 : ℝ) ≤ 1 / 1 := by norm_num
  have h2 := sec2timespec_ns h
  simp only [sec2timespec, if_pos h]
  simp
  decide

/-- Two frames, with one event in the first. -/
def two (e : Event) : List (TS × List (TS × Option Event)) :=
  [(⟨0, 0⟩, [(⟨2, 0⟩, some e)]), (⟨2, 0⟩, [(⟨4, 0⟩, none)])]

/-- C109 does not hold for the event in the parameters of a frame: there is none in any
frame, also if an event has been handled. -/
theorem C109_violates_event :
    (∀ {W : Type} (A : App W) (fps : ℝ) (t : TS) (w : W) e0 k0 fs (s : St W),
      displayLoop A fps t w e0 k0 fs = some s →
      ∀ P r, .display P r ∈ s.trace → ∀ e, P.event ≠ .live e) ∧
    ∃ (e : Event) (s : St Nat) (pre : List Obs) (P : Params) (r : Req) (post : List Obs),
      displayLoop idle 1 ⟨0, 0⟩ 0 [] [] (two e) = some s ∧
      s.trace = pre ++ .display P r :: post ∧ handled pre = [e] ∧ P.event = .dead := by
  constructor
  · intro W A fps t w e0 k0 fs s h P r hm
    obtain ⟨i, -⟩ := loop_inv h
    obtain ⟨pre, post, hp⟩ := List.append_of_mem hm
    exact (i.good.ok hp).2.2.2.2.2.2.2
  · refine ⟨⟨QUIT, 0, 7⟩, ?_⟩
    simp only [displayLoop, one_second]
    exact ⟨_, [_, _, _, _, _], _, _, _, rfl, rfl, rfl, rfl⟩

/-- C109 does not hold for handlers of the event that a key is pressed: they are not called. -/
theorem C109_violates_keydown :
    ∃ (e : Event) (s : St Nat) (pre : List Obs) (P : Params) (r : Req) (post : List Obs),
      e.type = KEYDOWN ∧
      displayLoop idle 1 ⟨0, 0⟩ 0 [(KEYDOWN, .user 0)] [] (two e) = some s ∧
      s.trace = pre ++ .event e none P (-1) true r :: post ∧ handled pre = [] ∧
      handled post = [] := by
  refine ⟨⟨KEYDOWN, 65, 7⟩, ?_⟩
  simp only [displayLoop, one_second]
  exact ⟨_, [_, _, _], _, _, _, trivial, rfl, rfl, rfl, rfl⟩

/-- A run with a handler of a key. -/
example : ∃ s, displayLoop idle 1 ⟨0, 0⟩ 0 uiEvents (uiKeys ++ [(65, .user 3)])
    (two ⟨KEYDOWN, 65, 0⟩) = some s ∧ handled s.trace = [⟨KEYDOWN, 65, 0⟩] ∧ s.w = 1 ∧
    s.P.quit = false := by
  simp only [displayLoop, one_second]
  exact ⟨_, rfl, rfl, rfl, rfl⟩

/-- A run that ends. -/
example : ∃ s, displayLoop idle 1 ⟨0, 0⟩ 0 uiEvents uiKeys
    [(⟨0, 0⟩, [(⟨0, 5⟩, none), (⟨0, 7⟩, some ⟨QUIT, 0, 0⟩)])] = some s ∧ s.P.quit = true := by
  simp only [displayLoop, one_second]
  exact ⟨_, rfl, rfl⟩

end Verif.SdlLoop
