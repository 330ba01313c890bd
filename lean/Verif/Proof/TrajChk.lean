import Verif.Model.TrajChk
import Verif.Prop.TjXPb
import Verif.Prop.TrajEval

/-!
# Helper lemmas for C135
-/

namespace Verif.Ct

variable {n : Nat}

theorem evalFrom_mem (segs : List (Seg n)) : ∀ (i : Nat) (st : St n) (t : ℝ),
    (evalFrom segs i st t).1 = true →
      ∃ s ∈ segs, ∃ st', (s st' t).1 = true ∧ (evalFrom segs i st t).2.1 = (s st' t).2 := by
  induction segs with
  | nil => intro i st t h; simp [evalFrom] at h
  | cons s rest ih =>
    intro i st t h
    cases hr : (s st t).1 with
    | true => exact ⟨s, by simp, st, hr, by rw [evalFrom_in _ _ _ _ _ hr]⟩
    | false =>
      rw [evalFrom_nil_tail _ _ _ _ _ hr] at h ⊢
      obtain ⟨x, hx, st', h1, h2⟩ := ih _ _ _ h
      exact ⟨x, by simp [hx], st', h1, h2⟩

/-- No segment touches the state when it answers "outside". -/
def OutSame (segs : List (Seg n)) : Prop :=
  ∀ s ∈ segs, ∀ st t, (s st t).1 = false → (s st t).2 = st

theorem evalFrom_same (segs : List (Seg n)) : OutSame segs → ∀ (i : Nat) (st : St n) (t : ℝ),
    (evalFrom segs i st t).1 = false → (evalFrom segs i st t).2.1 = st := by
  induction segs with
  | nil => intro _ i st t _; rfl
  | cons s rest ih =>
    intro hs i st t h
    cases hr : (s st t).1 with
    | true => rw [evalFrom_in _ _ _ _ _ hr] at h; cases h
    | false =>
      rw [evalFrom_nil_tail _ _ _ _ _ hr] at h ⊢
      rw [ih (fun x hx => hs x (by simp [hx])) _ _ _ h]
      exact hs s (by simp) st t hr

theorem ItInv.mono {α : Type} {obs : St n → α} {segs : List (Seg n)} {c : ℝ} {it : Option Nat}
    {T T' : ℝ} (h : ItInv obs segs c it T) (hT : T ≤ T') : ItInv obs segs c it T' := by
  intro k hk
  obtain ⟨h1, b, hb, hc, hr⟩ := h k hk
  exact ⟨h1, b, hb.trans hT, hc, fun s hs t' ht => hr s hs t' (le_trans hT ht)⟩

/-- Evaluating at an earlier time does not spoil the iterator for times from `t1` on. -/
theorem back_inv {α : Type} {obs : St n → α} {a c : ℝ} {segs : List (Seg n)}
    (hne : segs ≠ []) (h : SegChain obs a segs c) {it : Option Nat} {t0 t1 : ℝ}
    (hi : ItInv obs segs c it t1) (ht : t0 ≤ t1) (st : St n) :
    ∃ r, listEval segs it st t0 = some r ∧ ItInv obs segs c r.2.2 t1 := by
  cases it with
  | none =>
    obtain ⟨r, h1, h2, -⟩ := listEval_step hne h (it := none) (T := t0) (t := t0)
      (fun k hk => by cases hk) le_rfl st
    exact ⟨r, h1, h2.mono ht⟩
  | some k =>
    obtain ⟨hk, b, hb, hch, hrej⟩ := hi k rfl
    refine ⟨_, if_neg hne, ?_⟩
    simp only [Option.getD_some]
    have hne' : segs.drop k ≠ [] := by
      intro e
      have := congrArg List.length e
      simp at this
      omega
    by_cases hbt : b ≤ t0
    · obtain ⟨-, h2, h3⟩ := evalFrom_chain hne' hch k st t0 hbt
      intro k2 hk2
      cases hr : (evalFrom (segs.drop k) k st t0).1 with
      | false => rw [h2 hr] at hk2; cases hk2
      | true =>
        obtain ⟨k', b', e, hk', hb', hch', hrej'⟩ := h3 hr
        rw [e] at hk2
        obtain rfl : k + k' = k2 := Option.some.inj hk2
        have hl : (segs.drop k).length = segs.length - k := List.length_drop
        refine ⟨by omega, b', hb'.trans ht, by rw [← List.drop_drop]; exact hch', ?_⟩
        intro s hs t' ht'
        rw [List.take_add, List.mem_append] at hs
        rcases hs with hs | hs
        · exact hrej s hs t' ht'
        · exact hrej' s hs t' (le_trans ht ht')
    · rw [(evalFrom_before hch k st t0 (not_le.1 hbt)).2]
      intro k2 hk2; cases hk2

/-- The sampling loop ends. -/
theorem c0Steps_ends {T : ℝ} {segs : List (Seg n)} (hne : segs ≠ [])
    (h : SegChain obsQ 0 segs T) (dt : ℝ) (hdt : 0 < dt) (tol : ℝ) (it : Option Nat) (s0 s1 : St n)
    (hi : ItInv obsQ segs T it dt) (sw : Bool) :
    ∃ fuel l, c0Steps segs dt tol fuel it s0 s1 0 dt sw = some l := by
  suffices key : ∀ (m : Nat) (t0 : ℝ), T < t0 + (m + 1 : Nat) * dt → ∀ it s0 s1 sw,
      ItInv obsQ segs T it (t0 + dt) →
      ∃ l, c0Steps segs dt tol (m + 1) it s0 s1 t0 (t0 + dt) sw = some l by
    obtain ⟨m, hm⟩ := exists_nat_gt (T / dt)
    rw [div_lt_iff₀ hdt] at hm
    obtain ⟨l, hl⟩ := key m 0 (by push_cast; linarith) it s0 s1 sw (by simpa using hi)
    exact ⟨m + 1, l, by simpa using hl⟩
  intro m
  induction m with
  | zero =>
    intro t0 hT it s0 s1 sw hi
    obtain ⟨r1, hr1, hi1, hcode, -⟩ := listEval_step hne h hi le_rfl s1
    have : r1.1 = false := by
      by_contra hc
      have := (hcode.1 (by simpa using hc)).2
      simp at hT; linarith
    refine ⟨⟨false, s0, r1.2.1, sw⟩, ?_⟩
    rw [c0Steps, hr1]; simp [this]
  | succ m ih =>
    intro t0 hT it s0 s1 sw hi
    obtain ⟨r1, hr1, hi1, hcode, -⟩ := listEval_step hne h hi le_rfl s1
    obtain ⟨r0, hr0, hi0⟩ := back_inv hne h hi1 (by linarith : t0 ≤ t0 + dt) s0
    obtain ⟨l, hl⟩ := ih (t0 + dt) (by push_cast at hT ⊢; linarith) r0.2.2 r1.2.1 r0.2.1 (!sw)
      (hi0.mono (by linarith))
    rw [c0Steps, hr1]
    simp only [Option.bind_eq_bind, Option.bind_some]
    split
    · rw [hr0]
      simp only [Option.bind_some]
      split
      · exact ⟨_, rfl⟩
      · exact ⟨l, hl⟩
    · exact ⟨_, rfl⟩

/-- Every segment that answers "inside" gives the position `Q`. -/
def Agree (segs : List (Seg n)) (Q : ℝ → Fin n → ℝ) : Prop :=
  ∀ s ∈ segs, ∀ st t, (s st t).1 = true → (s st t).2.q = Q t

theorem listEval_agree {segs : List (Seg n)} {Q : ℝ → Fin n → ℝ} (ha : Agree segs Q)
    {it : Option Nat} {st : St n} {t : ℝ} {r : Bool × St n × Option Nat}
    (h : listEval segs it st t = some r) (hr : r.1 = true) : r.2.1.q = Q t := by
  unfold listEval at h
  split at h
  · cases h
  · obtain rfl := Option.some.inj h
    obtain ⟨s, hs, st', h1, h2⟩ := evalFrom_mem _ _ _ _ hr
    rw [h2]
    exact ha s (List.mem_of_mem_drop hs) st' t h1

theorem listEval_same {segs : List (Seg n)} (ho : OutSame segs)
    {it : Option Nat} {st : St n} {t : ℝ} {r : Bool × St n × Option Nat}
    (h : listEval segs it st t = some r) (hr : r.1 = false) : r.2.1 = st := by
  unfold listEval at h
  split at h
  · cases h
  · obtain rfl := Option.some.inj h
    exact evalFrom_same _ (fun s hs => ho s (List.mem_of_mem_drop hs)) _ _ _ hr

/-- The sampling loop compares consecutive samples of the curve. -/
theorem c0Steps_value {T : ℝ} {segs : List (Seg n)} {Q : ℝ → Fin n → ℝ} (hne : segs ≠ [])
    (h : SegChain obsQ 0 segs T) (ha : Agree segs Q) (ho : OutSame segs) (dt : ℝ) (hdt : 0 < dt)
    (tol : ℝ) : ∀ (fuel j : Nat) (it : Option Nat) (s0 s1 : St n) (sw : Bool) (l : C0Loop n),
      ItInv obsQ segs T it ((j + 1 : Nat) * dt) →
      (s0.q = Q (j * dt) ∨ (it = some 0 ∧ ∀ s, segs.head? = some s → ∀ st,
        (s st (j * dt)).1 = true ∧ (s st ((j + 1 : Nat) * dt)).1 = true)) →
      c0Steps segs dt tol fuel it s0 s1 (j * dt) ((j + 1 : Nat) * dt) sw = some l →
      (l.fail = true ↔ ∃ k : Nat, j ≤ k ∧ (k + 1 : Nat) * dt ≤ T ∧
        tol < dist1 (Q ((k + 1 : Nat) * dt)) (Q (k * dt))) := by
  intro fuel
  induction fuel with
  | zero => intro j it s0 s1 sw l _ _ hl; cases hl
  | succ fuel ih =>
    intro j it s0 s1 sw l hi hs0 hl
    have hmono : ∀ k : Nat, j ≤ k → ((j + 1 : Nat) : ℝ) * dt ≤ (k + 1 : Nat) * dt := fun k hk =>
      mul_le_mul_of_nonneg_right (by exact_mod_cast Nat.succ_le_succ hk) hdt.le
    have hj0 : (0 : ℝ) ≤ (j + 1 : Nat) * dt := by positivity
    have hjj : (j : ℝ) * dt ≤ (j + 1 : Nat) * dt := by push_cast; linarith
    obtain ⟨r1, hr1, hi1, hcode, -⟩ := listEval_step hne h hi le_rfl s1
    obtain ⟨r0, hr0, hi0⟩ := back_inv hne h hi1 hjj s0
    rw [c0Steps, hr1] at hl
    simp only [Option.bind_eq_bind, Option.bind_some] at hl
    cases hc : r1.1 with
    | false =>
      rw [hc] at hl
      simp only [Bool.false_eq_true, if_false] at hl
      obtain rfl := Option.some.inj hl
      constructor
      · intro hf; cases hf
      · rintro ⟨k, hk, hkT, -⟩
        have := hcode.2 ⟨hj0, (hmono k hk).trans hkT⟩
        rw [this] at hc; cases hc
    | true =>
      have hjT := (hcode.1 hc).2
      have q1 := listEval_agree ha hr1 hc
      have q0 : r0.2.1.q = Q (j * dt) := by
        rcases Bool.eq_false_or_eq_true r0.1 with hb | hb
        · exact listEval_agree ha hr0 hb
        · rcases hs0 with hs0 | ⟨rfl, hf⟩
          · rw [listEval_same ho hr0 hb]; exact hs0
          · exfalso
            cases segs with
            | nil => exact hne rfl
            | cons s rest =>
              have hf' := hf s rfl
              have e1 : r1 = (true, (s s1 ((j + 1 : Nat) * dt)).2, some 0) := by
                have : some r1 = some (evalFrom (s :: rest) 0 s1 ((j + 1 : Nat) * dt)) :=
                  hr1.symm.trans (if_neg hne)
                rw [Option.some.inj this, evalFrom_in _ _ _ _ _ (hf' s1).2]
              have e0 : r0 = (true, (s s0 (j * dt)).2, some 0) := by
                have : some r0 = some (evalFrom (s :: rest) 0 s0 (j * dt)) := by
                  rw [e1] at hr0
                  exact hr0.symm.trans (if_neg hne)
                rw [Option.some.inj this, evalFrom_in _ _ _ _ _ (hf' s0).1]
              rw [e0] at hb; cases hb
      rw [hc, hr0] at hl
      simp only [if_true, Option.bind_some, q1, q0] at hl
      split at hl
      · rename_i ht
        obtain rfl := Option.some.inj hl
        exact ⟨fun _ => ⟨j, le_rfl, hjT, ht⟩, fun _ => rfl⟩
      · rename_i ht
        have et : (j : ℝ) * dt + dt = ((j + 1 : Nat) : ℝ) * dt := by push_cast; ring
        have et' : ((j + 1 : Nat) : ℝ) * dt + dt = ((j + 1 + 1 : Nat) : ℝ) * dt := by push_cast; ring
        rw [et, et'] at hl
        rw [ih (j + 1) _ _ _ _ _ (hi0.mono (by push_cast; linarith)) (Or.inl q1) hl]
        constructor
        · rintro ⟨k, hk, hh⟩; exact ⟨k, by omega, hh⟩
        · rintro ⟨k, hk, hkT, hh⟩
          rcases Nat.eq_or_lt_of_le hk with rfl | hk
          · exact absurd hh ht
          · exact ⟨k, hk, hkT, hh⟩

/-! ## Pieces -/

/-- Whichever piece of a joined chain contains `t`, it has the value of the curve there. -/
theorem any_piece (f : Piece n → ℝ → Fin n → ℝ) (ps : List (Piece n)) : ∀ {p : Piece n},
    TChain p ps → Joined f p ps → ∀ r ∈ p :: ps, ∀ t, r.a ≤ t → t ≤ r.b →
      f r t = pev f (p :: ps) t := by
  induction ps with
  | nil =>
    intro p hc hj r hr t h1 h2
    obtain rfl : r = p := by simpa using hr
    exact (pev_first f _ _ ⟨h1, h2⟩).symm
  | cons p' ps ih =>
    intro p hc hj r hr t h1 h2
    rcases List.mem_cons.1 hr with rfl | hr
    · exact (pev_first f _ _ ⟨h1, h2⟩).symm
    · have key : ∀ (ps : List (Piece n)) (p : Piece n), TChain p ps → ∀ r ∈ p :: ps, p.a ≤ r.a := by
        intro ps
        induction ps with
        | nil => intro p _ r hr; obtain rfl : r = p := by simpa using hr
                 exact le_rfl
        | cons q qs ih =>
          intro p hc r hr
          rcases List.mem_cons.1 hr with rfl | hr
          · exact le_rfl
          · have := ih q hc.2.2 r hr
            have := hc.2.1
            have := hc.1
            linarith
      have := key ps p' hc.2.2 r hr
      have e := hc.2.1
      rw [pev_rest f hc hj.1 (by linarith)]
      exact ih hc.2.2 hj.2 r hr t h1 h2

theorem agree_of {segs : List (Seg n)} {pss : List (List (Piece n))}
    (h : List.Forall₂ Covers segs pss) {Q : ℝ → Fin n → ℝ}
    (hq : ∀ r ∈ pss.flatten, ∀ t, r.a ≤ t → t ≤ r.b → r.g t = Q t) : Agree segs Q := by
  induction h with
  | nil => intro s hs; cases hs
  | @cons s ps segs pss hc _ ih =>
    intro x hx st t hin
    rcases List.mem_cons.1 hx with rfl | hx
    · obtain ⟨p, hp⟩ := (hc st t).1.1 hin
      obtain ⟨m1, m2, m3⟩ := sel_mem hp
      rw [((hc st t).2 p hp).1]
      exact hq p (by simp [m1]) t m2 m3
    · exact ih (fun r hr => hq r (by simp only [List.flatten_cons, List.mem_append]; exact Or.inr hr))
        x hx st t hin

theorem pbT_ev (p : Option (Pb n)) (cs : List (Pb n)) : (pbT p cs).map TSeg.ev = pbSegs p cs := by
  induction cs generalizing p with
  | nil => rfl
  | cons c cs ih => simp [pbT, pbSegs, ih]

theorem pbSegs_same (p : Option (Pb n)) (cs : List (Pb n)) : OutSame (pbSegs p cs) := by
  induction cs generalizing p with
  | nil => intro s hs; cases hs
  | cons c cs ih =>
    intro s hs st t h
    rcases List.mem_cons.1 hs with rfl | hs
    · exact Verif.TjXPb.pbEval_false p c cs.head? st t h
    · exact ih _ s hs st t h

theorem dist1_self (a : Fin n → ℝ) : dist1 a a = 0 := by simp [dist1]

/-- Where consecutive segments meet. -/
theorem c0Ends_pb {Q : ℝ → Fin n → ℝ} {eps : ℝ} (he : 0 ≤ eps) (cs : List (Pb n)) :
    ∀ (p : Option (Pb n)) (c : Pb n), Agree (pbSegs p (c :: cs)) Q →
      (∀ x ∈ c :: cs, 0 ≤ x.b) →
      (c :: cs).IsChain (fun c m => c.t + c.b / 2 ≤ c.t + c.dt - m.b / 2 ∧ m.t = c.t + c.dt) →
      ∀ s0 s1, c0Ends eps (pbT p (c :: cs)) s0 s1 = some 0 := by
  induction cs with
  | nil => intros; rfl
  | cons m cs ih =>
    intro p c ha hb hch s0 s1
    obtain ⟨⟨h1, h2⟩, hch'⟩ := List.isChain_cons_cons.1 hch
    have hbc := hb c (by simp)
    have hbm := hb m (by simp)
    have i0 : (pbEval p c (some m) s0 (c.t + c.dt - m.b / 2)).1 = true := by
      unfold pbEval
      dsimp only
      split
      · rfl
      · rw [if_pos ⟨h1, le_rfl⟩]
    have i1 : (pbEval (some c) m cs.head? s1 (m.t - m.b / 2)).1 = true := by
      unfold pbEval
      dsimp only
      rw [if_pos ⟨le_rfl, by linarith⟩]
    have q0 := ha _ (by simp [pbSegs]) s0 _ i0
    have q1 := ha (pbEval (some c) m cs.head?) (by simp [pbSegs]) s1 _ i1
    have et : m.t - m.b / 2 = c.t + c.dt - m.b / 2 := by rw [h2]
    have hrec := fun a b => ih (some c) m (fun s hs => ha s (List.mem_cons_of_mem _ hs))
      (fun x hx => hb x (List.mem_cons_of_mem _ hx)) hch' a b
    simp only [pbT, c0Ends, endTimes, Option.bind_eq_bind, Option.bind_some, List.head?_cons]
    rw [q0, q1, et, dist1_self, if_neg (not_lt.2 he)]
    exact hrec _ _

theorem pbT_last (eps : ℝ) (cs : List (Pb n)) : ∀ (p : Option (Pb n)) (s0 s1 : St n),
    c0Ends eps (pbT p (pbLast cs)) s0 s1 = c0Ends eps (pbT p cs) s0 s1 := by
  induction cs with
  | nil => intros; rfl
  | cons c cs ih =>
    intro p s0 s1
    cases cs with
    | nil => rfl
    | cons m cs =>
      have hh : ∃ m' r, pbLast (m :: cs) = m' :: r ∧ m'.b = m.b ∧ m'.t = m.t := by
        cases cs with
        | nil => exact ⟨_, _, rfl, rfl, rfl⟩
        | cons x xs => exact ⟨_, _, rfl, rfl, rfl⟩
      obtain ⟨m', r, e, hb, ht⟩ := hh
      have ih := ih (some c)
      have hs := pbLast_segs (some c) (m :: cs)
      have hs0 := pbLast_segs p (c :: m :: cs)
      simp only [pbLast]
      rw [e] at ih hs ⊢
      simp only [pbLast, e, pbSegs, List.cons.injEq] at hs hs0
      simp only [pbT, c0Ends, endTimes, Option.bind_eq_bind, Option.bind_some, List.head?_cons, hb, ht]
      simp only [pbT] at ih
      rw [hs.1] at ih ⊢
      have e0 : pbEval p c (some m') = pbEval p c (some m) := hs0.1
      rw [e0]
      split
      · rfl
      · exact ih _ _

/-- What the generator of blended trajectories gives. -/
theorem pb_facts {L : Limits n} {fuel : Nat} {p : Fin n → ℝ}
    {ps : List (Fin n → ℝ)} {cs : List (Pb n)} {T : ℝ}
    (h : pbGenerate L fuel (p :: ps) = some (cs, T)) :
    (∃ Q, Agree (pbSegs none cs) Q) ∧
      ∀ eps, 0 ≤ eps → ∀ s0 s1, c0Ends eps (pbT none cs) s0 s1 = some 0 := by
  simp only [pbGenerate, if_neg (List.cons_ne_nil p ps), Option.bind_eq_bind,
    Option.bind_eq_some_iff] at h
  obtain ⟨out, hout, c0, hc0, c1, hc1, he⟩ := h
  simp only [Option.some.injEq, Prod.mk.injEq] at he
  obtain ⟨rfl, hT⟩ := he
  obtain ⟨hi, ho, hn, hq⟩ := pbLoop_spec fuel (pbInit_in L _) hout
  rw [pbInit_q] at hq
  cases out with
  | nil => simp at hq
  | cons c out =>
    obtain ⟨hch, hj, -, -⟩ := pb_curve out hi ho hn
    have ha : Agree (pbSegs none (c :: out)) (pev Piece.g (c.blend none :: pbRest c out)) := by
      refine agree_of (pbSegs_covers none (c :: out)) ?_
      rw [pbPieces_flatten]
      exact any_piece Piece.g _ hch hj
    refine ⟨⟨_, by rw [pbLast_segs]; exact ha⟩, fun eps he s0 s1 => ?_⟩
    rw [pbT_last]
    refine c0Ends_pb he out none c ha (fun x hx => (ho.bpos x hx).le) ?_ s0 s1
    have key : ∀ (cs : List (Pb n)) (p : Option (Pb n)) (c : Pb n), PbOut L p (c :: cs) →
        NoOverlap (c :: cs) →
        (c :: cs).IsChain (fun c m => c.t + c.b / 2 ≤ c.t + c.dt - m.b / 2 ∧ m.t = c.t + c.dt) := by
      intro cs
      induction cs with
      | nil => intros; exact List.IsChain.singleton _
      | cons m cs ih =>
        intro p c ho hn
        have hov := hn.1
        exact List.isChain_cons_cons.2 ⟨⟨by linarith, ho.2.2.2.2.2.2.1⟩, ih _ m ho.2.2.2.2 hn.2⟩
    exact key out none c ho hn

end Verif.Ct
