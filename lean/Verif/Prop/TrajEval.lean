import Verif.Prop.TrajGen

/-!
# C48, C64: evaluating and checking a segment list
-/

namespace Verif.Ct

open Set

variable {n : Nat}

/-! ## C48 -/

/-- Evaluating a list whose iterator is off answers "inside" exactly when some segment does, for
every non-empty list of segments whose answer depends on the time only. -/
theorem C48_fresh_partial (segs : List (Seg n)) (hne : segs ≠ []) (ins : Seg n → ℝ → Prop)
    (hins : ∀ s ∈ segs, ∀ st t, (s st t).1 = true ↔ ins s t) (st : St n) (t : ℝ) :
    ∃ r, listEval segs none st t = some r ∧ (r.1 = true ↔ ∃ s ∈ segs, ins s t) := by
  refine ⟨_, if_neg hne, ?_⟩
  simp only [Option.getD_none, List.drop_zero]
  clear hne
  generalize 0 = i
  induction segs generalizing st i with
  | nil => simp [evalFrom]
  | cons s rest ih =>
    have hs := hins s (by simp) st t
    cases hr : (s st t).1 with
    | true =>
      rw [evalFrom_in _ _ _ _ _ hr]
      exact ⟨fun _ => ⟨s, by simp, hs.1 hr⟩, fun _ => rfl⟩
    | false =>
      rw [evalFrom_nil_tail _ _ _ _ _ hr, ih (fun x hx => hins x (by simp [hx]))]
      have hn : ¬ ins s t := by
        intro h; rw [hs.2 h] at hr; cases hr
      constructor
      · rintro ⟨x, hx, h⟩; exact ⟨x, by simp [hx], h⟩
      · rintro ⟨x, hx, h⟩
        rcases List.mem_cons.1 hx with rfl | hx
        · exact absurd h hn
        · exact ⟨x, hx, h⟩

/-- What a history of evaluations of a list covering `[a,c]` should return: "inside" exactly on
`[a,c]`, and then the position and velocity a list never evaluated before gives, whatever the
state passed in. -/
def HistoryFree (segs : List (Seg n)) (a c : ℝ) (calls : List (St n × ℝ)) : Prop :=
  ∃ rs, listRun segs none calls = some rs ∧
    List.Forall₂ (fun (call : St n × ℝ) (r : Bool × St n) =>
      (r.1 = true ↔ call.2 ∈ Icc a c) ∧
      (r.1 = true → ∀ st', ∃ r', listEval segs none st' call.2 = some r' ∧ r'.1 = true ∧
        r'.2.1.q = r.2.q ∧ r'.2.1.dq = r.2.dq)) calls rs

theorem listRun_chain {a c : ℝ} {segs : List (Seg n)} (hne : segs ≠ [])
    (h : SegChain obsQ a segs c) (calls : List (St n × ℝ))
    (ht : (calls.map Prod.snd).Pairwise (· ≤ ·)) : HistoryFree segs a c calls := by
  suffices key : ∀ it T, ItInv obsQ segs c it T → (∀ x ∈ calls, T ≤ x.2) →
      ∃ rs, listRun segs it calls = some rs ∧
    List.Forall₂ (fun (call : St n × ℝ) (r : Bool × St n) =>
      (r.1 = true ↔ call.2 ∈ Icc a c) ∧
      (r.1 = true → ∀ st', ∃ r', listEval segs none st' call.2 = some r' ∧ r'.1 = true ∧
        r'.2.1.q = r.2.q ∧ r'.2.1.dq = r.2.dq)) calls rs by
    cases calls with
    | nil => exact ⟨[], rfl, .nil⟩
    | cons x xs =>
      refine key none x.2 (fun k hk => by cases hk) ?_
      intro y hy
      rcases List.mem_cons.1 hy with rfl | hy
      · exact le_rfl
      · exact (List.pairwise_cons.1 ht).1 y.2 (List.mem_map.2 ⟨y, hy, rfl⟩)
  induction calls with
  | nil => exact fun _ _ _ _ => ⟨[], rfl, .nil⟩
  | cons x xs ih =>
    intro it T hi hT
    obtain ⟨hx, hxs⟩ := List.pairwise_cons.1 ht
    obtain ⟨r, hr, hi', hcode, hobs⟩ := listEval_step hne h hi (hT x (by simp)) x.1
    obtain ⟨rs, hrs, hf⟩ := ih hxs r.2.2 x.2 hi' fun y hy =>
      hx y.2 (List.mem_map.2 ⟨y, hy, rfl⟩)
    refine ⟨(r.1, r.2.1) :: rs, ?_, .cons ⟨hcode, fun h1 st' => ?_⟩ hf⟩
    · obtain ⟨st, t⟩ := x
      rw [listRun, hr]
      simp only [Option.bind_eq_bind, Option.bind_some, hrs]
    · obtain ⟨r', e1, e2, e3⟩ := hobs h1 st'
      exact ⟨r', e1, e2, congrArg Prod.fst e3, congrArg Prod.snd e3⟩

theorem lin_chain {L : Limits n} (hL : ∀ i, L.vmin i < 0 ∧ 0 < L.vmax i)
    {p p' : Fin n → ℝ} {ps : List (Fin n → ℝ)} {segs : List (SegDq n)} {T : ℝ}
    (h : linGenerate L (p :: p' :: ps) = some (segs, T)) :
    segs.map SegDq.eval ≠ [] ∧ SegChain obsQ 0 (segs.map SegDq.eval) T := by
  obtain ⟨s, rest, e, e0, -, hc, -, hs, -⟩ := linLoop_spec hL ps h
  subst e
  have := segChain_of_covers (lin_covers (s :: rest))
    (by intro x hx; obtain ⟨y, -, rfl⟩ := List.mem_map.1 hx; simp) (lin_flatten _) hc
  rw [hs, show s.piece.a = 0 from e0] at this
  exact ⟨by simp, this⟩

theorem ddq_in (sgn : ℝ) (c : SegDdq n) (st : St n) (t : ℝ) :
    (c.evalSgn sgn st t).1 = true ↔ c.t0 ≤ t ∧ t ≤ c.t1 := by
  unfold SegDdq.evalSgn
  split <;> simp_all

theorem dq_in (c : SegDq n) (st : St n) (t : ℝ) :
    (c.eval st t).1 = true ↔ c.t0 ≤ t ∧ t ≤ c.t1 := by
  unfold SegDq.eval
  split <;> simp_all

theorem trap_chain {L : Limits n} (hL : L.Ok) (sgn : ℝ) (ps : List (Fin n → ℝ)) :
    ∀ {p : Fin n → ℝ} {t T : ℝ} {segs : List (Trap n)}, trapLoop L p ps t = some (segs, T) →
      SegChain obsQ t (trapSegs sgn segs) T := by
  induction ps with
  | nil =>
    intro p t T segs h
    simp only [trapLoop, Option.some.injEq, Prod.mk.injEq] at h
    obtain ⟨rfl, rfl⟩ := h
    rfl
  | cons p' ps ih =>
    intro p t T segs h
    simp only [trapLoop, Option.bind_eq_bind, Option.bind_eq_some_iff] at h
    obtain ⟨s, hs, r, hr, he⟩ := h
    simp only [Option.some.injEq, Prod.mk.injEq] at he
    obtain ⟨rfl, rfl⟩ := he
    obtain ⟨c1, c2, c3, c4, c5, c6, -⟩ := trap_curve hL hs
    have hrest := ih (T := r.2) (segs := r.1) hr
    refine ⟨s.acc.t1, c1 ▸ c2.le, ?_, ?_, s.con.t1, c3 ▸ c4, ?_, ?_, s.dec.t1, c5 ▸ c6.le, ?_, ?_,
      hrest⟩
    · rw [← c1]; exact ddq_in sgn s.acc
    · intro st st' t h1 h2
      have : s.acc.t0 ≤ t ∧ t ≤ s.acc.t1 := ⟨c1 ▸ h1, h2⟩
      simp only [obsQ, SegDdq.evalSgn, if_pos this]
    · rw [← c3]; exact dq_in s.con
    · intro st st' t h1 h2
      have : s.con.t0 ≤ t ∧ t ≤ s.con.t1 := ⟨c3 ▸ h1, h2⟩
      simp only [obsQ, SegDq.eval, if_pos this]
    · rw [← c5]; exact ddq_in sgn s.dec
    · intro st st' t h1 h2
      have : s.dec.t0 ≤ t ∧ t ≤ s.dec.t1 := ⟨c5 ▸ h1, h2⟩
      simp only [obsQ, SegDdq.evalSgn, if_pos this]

theorem pb_pieces_ne (p : Option (Pb n)) (cs : List (Pb n)) : ∀ ps ∈ pbPieces p cs, ps ≠ [] := by
  induction cs generalizing p with
  | nil => simp [pbPieces]
  | cons c cs ih =>
    intro ps hps
    rcases List.mem_cons.1 hps with rfl | hps
    · cases cs <;> simp [Pb.pieces]
    · exact ih _ ps hps

theorem pb_chain {L : Limits n} {fuel : Nat} {p : Fin n → ℝ}
    {ps : List (Fin n → ℝ)} {cs : List (Pb n)} {T : ℝ}
    (h : pbGenerate L fuel (p :: ps) = some (cs, T)) :
    pbSegs none cs ≠ [] ∧ SegChain obsQ 0 (pbSegs none cs) T := by
  simp only [pbGenerate, if_neg (List.cons_ne_nil p ps), Option.bind_eq_bind,
    Option.bind_eq_some_iff] at h
  obtain ⟨out, hout, c0, hc0, c1, hc1, he⟩ := h
  simp only [Option.some.injEq, Prod.mk.injEq] at he
  obtain ⟨rfl, hT⟩ := he
  obtain ⟨hi, ho, hn, hq⟩ := pbLoop_spec fuel (pbInit_in L _) hout
  rw [pbInit_q] at hq
  cases out with
  | nil => simp at hq
  | cons c out =>
    obtain ⟨hch, -, -, hst⟩ := pb_curve out hi ho hn
    obtain ⟨l', hl', hdur⟩ := pb_duration out (c0.b / 2) ho
    obtain ⟨c0', hc0', hb0⟩ := pbLast_head c out
    rw [hc0'] at hc0
    obtain rfl : c0' = c0 := Option.some.inj hc0
    rw [hl'] at hc1
    obtain rfl : l' = c1 := Option.some.inj hc1
    have hct : c.t = c.b / 2 := ho.2.2.1
    have hE : pbEnd c out = T := by
      rw [← hT, hdur, hb0, hct]; ring
    have a0 : (c.blend none).a = 0 := by
      show c.t - c.b / 2 = 0
      linarith
    have := segChain_of_covers (pbSegs_covers none (c :: out)) (pb_pieces_ne none _)
      (pbPieces_flatten none c out) hch
    rw [hst, hE, a0] at this
    rw [pbLast_segs]
    exact ⟨by simp [pbSegs], this⟩

/-- Histories with non-decreasing times over consecutive segments of constant velocity (as
generated by `aa_ct_tjq_lin_generate`) do not influence each other. -/
theorem C48_forward_linear_partial (L : Limits n) (hL : ∀ i, L.vmin i < 0 ∧ 0 < L.vmax i)
    (p p' : Fin n → ℝ) (ps : List (Fin n → ℝ)) (segs : List (SegDq n)) (T : ℝ)
    (h : linGenerate L (p :: p' :: ps) = some (segs, T)) (calls : List (St n × ℝ))
    (ht : (calls.map Prod.snd).Pairwise (· ≤ ·)) :
    HistoryFree (segs.map SegDq.eval) 0 T calls := by
  obtain ⟨h1, h2⟩ := lin_chain hL h
  exact listRun_chain h1 h2 calls ht

/-- The same for lists of `aa_ct_tjq_trap_generate` (with either sign of the acceleration). -/
theorem C48_forward_trap_partial (L : Limits n) (hL : L.Ok)
    (p p' : Fin n → ℝ) (ps : List (Fin n → ℝ)) (segs : List (Trap n)) (T sgn : ℝ)
    (h : trapGenerate L (p :: p' :: ps) = some (segs, T)) (calls : List (St n × ℝ))
    (ht : (calls.map Prod.snd).Pairwise (· ≤ ·)) :
    HistoryFree (trapSegs sgn segs) 0 T calls := by
  refine listRun_chain ?_ (trap_chain hL sgn _ h) calls ht
  obtain ⟨s, rest, rfl, -⟩ := trapLoop_spec hL ps h
  simp [trapSegs]

/-- The same for lists of `aa_ct_tjq_pb_generate`. -/
theorem C48_forward_blend_partial (L : Limits n) (fuel : Nat) (p : Fin n → ℝ)
    (ps : List (Fin n → ℝ)) (cs : List (Pb n)) (T : ℝ)
    (h : pbGenerate L fuel (p :: ps) = some (cs, T)) (calls : List (St n × ℝ))
    (ht : (calls.map Prod.snd).Pairwise (· ≤ ·)) :
    HistoryFree (pbSegs none cs) 0 T calls :=
  listRun_chain (pb_chain h).1 (pb_chain h).2 calls ht

/-- Two consecutive segments, on `[0,1]` and `[1,2]`, of one joint moving at unit velocity. -/
noncomputable def twoSegs : List (Seg 1) :=
  [SegDq.eval ⟨fun _ => 0, fun _ => 1, 0, 1⟩, SegDq.eval ⟨fun _ => 1, fun _ => 1, 1, 2⟩]

/-- Defect: the hidden iterator only moves forward.  After an evaluation at 3/2, the time 1/2, which
is inside the first segment, is answered "outside". -/
theorem C48_violates_history (st : St 1) :
    (∃ st', listRun twoSegs none [(st, 1 / 2)] = some [(true, st')]) ∧
    ∃ st1 st2, listRun twoSegs none [(st, 3 / 2), (st, 1 / 2)] = some [(true, st1), (false, st2)] := by
  constructor
  · refine ⟨⟨fun _ => 0 + (1 / 2 - 0) * 1, fun _ => 1, st.ddq⟩, ?_⟩
    have e : ∀ it t, listEval twoSegs it st t = some (evalFrom (twoSegs.drop (it.getD 0))
        (it.getD 0) st t) := fun _ _ => if_neg (by simp [twoSegs])
    rw [listRun, e]
    norm_num [listRun, twoSegs, evalFrom, SegDq.eval]
  · refine ⟨⟨fun _ => 1 + (3 / 2 - 1) * 1, fun _ => 1, st.ddq⟩,
      ⟨fun _ => 1 + 1 * (2 - 1), st.dq, st.ddq⟩, ?_⟩
    have e : ∀ it t, listEval twoSegs it st t = some (evalFrom (twoSegs.drop (it.getD 0))
        (it.getD 0) st t) := fun _ _ => if_neg (by simp [twoSegs])
    rw [listRun, e]
    simp only [Option.bind_eq_bind, Option.bind_some, listRun]
    rw [e]
    norm_num [listRun, twoSegs, evalFrom, SegDq.eval]

/-! ## C64 -/

/-- On a list covering `[0,T]` whose iterator is off, `aa_ct_seg_list_check` ends, and returns 0
exactly when the function accepts the trajectory state (position and velocity, as any fresh
evaluation returns them) at every multiple of `dt` in `[0,T]`. -/
theorem listCheck_chain {T : ℝ} {segs : List (Seg n)} (hne : segs ≠ [])
    (h : SegChain obsQ 0 segs T) (dt : ℝ) (hdt : 0 < dt) (f : ℝ → (Fin n → ℝ) × (Fin n → ℝ) → Int)
    (st : St n) :
    ∃ fuel r, listCheck segs dt (fun t s => f t (obsQ s)) fuel none st 0 = some r ∧
      (r = 0 ↔ ∀ k : Nat, k * dt ≤ T →
        ∀ st', ∃ r', listEval segs none st' (k * dt) = some r' ∧ f (k * dt) (obsQ r'.2.1) = 0) := by
  suffices key : ∀ (m j : Nat), T < (j + m : Nat) * dt → ∀ it st T', ItInv obsQ segs T it T' →
      T' ≤ j * dt → ∃ r, listCheck segs dt (fun t s => f t (obsQ s)) (m + 1) it st (j * dt) = some r ∧
      (r = 0 ↔ ∀ k : Nat, j ≤ k → k * dt ≤ T →
        ∀ st', ∃ r', listEval segs none st' (k * dt) = some r' ∧ f (k * dt) (obsQ r'.2.1) = 0) by
    obtain ⟨m, hm⟩ := exists_nat_gt (T / dt)
    rw [div_lt_iff₀ hdt] at hm
    obtain ⟨r, h1, h2⟩ := key m 0 (by simpa using hm) none st 0 (fun k hk => by cases hk) (by simp)
    refine ⟨m + 1, r, by simpa using h1, ?_⟩
    rw [h2]
    exact ⟨fun h k hk => h k (Nat.zero_le _) hk, fun h k _ hk => h k hk⟩
  intro m
  induction m with
  | zero =>
    intro j hj it st T' hi hT'
    obtain ⟨r, hr, -, hcode, -⟩ := listEval_step hne h hi hT' st
    have : r.1 = false := by
      by_contra hc
      have := (hcode.1 (by simpa using hc)).2
      simp at hj; linarith
    refine ⟨0, ?_, fun _ k hk hk' => ?_, fun _ => rfl⟩
    · rw [listCheck, hr]; simp [this]
    · exfalso
      have : (j : ℝ) * dt ≤ k * dt := by
        apply mul_le_mul_of_nonneg_right _ hdt.le; exact_mod_cast hk
      simp at hj; linarith
  | succ m ih =>
    intro j hj it st T' hi hT'
    obtain ⟨r, hr, hi', hcode, hobs⟩ := listEval_step hne h hi hT' st
    have hmono : ∀ k : Nat, j ≤ k → (j : ℝ) * dt ≤ k * dt := fun k hk =>
      mul_le_mul_of_nonneg_right (by exact_mod_cast hk) hdt.le
    have hj0 : (0 : ℝ) ≤ j * dt := by positivity
    cases hc : r.1 with
    | false =>
      have hT : T < j * dt := by
        by_contra hc'
        rw [hcode.2 ⟨hj0, not_lt.1 hc'⟩] at hc; cases hc
      refine ⟨0, ?_, fun _ k hk hk' => ?_, fun _ => rfl⟩
      · rw [listCheck, hr]; simp [hc]
      · exfalso; linarith [hmono k hk]
    | true =>
      have hjT := (hcode.1 hc).2
      have hst : ∀ st', ∃ r', listEval segs none st' (j * dt) = some r' ∧
          obsQ r'.2.1 = obsQ r.2.1 := fun st' => by
        obtain ⟨r', a, -, b⟩ := hobs hc st'; exact ⟨r', a, b⟩
      by_cases hf : f (j * dt) (obsQ r.2.1) = 0
      · obtain ⟨r2, h1, h2⟩ := ih (j + 1) (by rw [show j + 1 + m = j + (m + 1) by omega]; exact hj)
          r.2.2 r.2.1 (j * dt) hi' (by push_cast; linarith)
        refine ⟨r2, ?_, ?_⟩
        · rw [listCheck, hr]
          simp only [Option.bind_eq_bind, Option.bind_some, hc, if_true]
          rw [if_neg (not_not.2 hf), ← h1]
          congr 1; push_cast; ring
        · rw [h2]
          constructor
          · intro h k hk hk' st'
            rcases Nat.eq_or_lt_of_le hk with rfl | hk
            · obtain ⟨r', a, b⟩ := hst st'
              exact ⟨r', a, by rw [b]; exact hf⟩
            · exact h k hk hk' st'
          · exact fun h k hk hk' st' => h k (by omega) hk' st'
      · refine ⟨f (j * dt) (obsQ r.2.1), ?_, fun h => absurd h hf, fun h => absurd ?_ hf⟩
        · rw [listCheck, hr]
          simp only [Option.bind_eq_bind, Option.bind_some, hc, if_true]
          rw [if_pos hf]
        · obtain ⟨r', a, b⟩ := h j le_rfl hjT st
          obtain ⟨r'', a', b'⟩ := hst st
          rw [a] at a'
          obtain rfl := Option.some.inj a'
          rw [← b']; exact b

/-- The sampled states are those of the curve followed. -/
theorem listCheck_follows {T : ℝ} {segs : List (Seg n)} (hne : segs ≠ [])
    (h : SegChain obsQ 0 segs T) {Q D : ℝ → Fin n → ℝ} (hF : Follows segs T Q D) (dt : ℝ)
    (hdt : 0 < dt) (f : ℝ → (Fin n → ℝ) × (Fin n → ℝ) → Int) (st : St n) :
    ∃ fuel r, listCheck segs dt (fun t s => f t (s.q, s.dq)) fuel none st 0 = some r ∧
      (r = 0 ↔ ∀ k : Nat, k * dt ≤ T → f (k * dt) (Q (k * dt), D (k * dt)) = 0) := by
  obtain ⟨fuel, r, h1, h2⟩ := listCheck_chain hne h dt hdt f st
  refine ⟨fuel, r, h1, h2.trans ⟨fun h k hk => ?_, fun h k hk st' => ?_⟩⟩
  · obtain ⟨r', a, b⟩ := h k hk st
    obtain ⟨st', it, a', hq, hd⟩ := (hF st (k * dt)).1 ⟨by positivity, hk⟩
    rw [a] at a'
    obtain rfl := Option.some.inj a'
    rw [← hq, ← hd]; exact b
  · obtain ⟨s, it, a', hq, hd⟩ := (hF st' (k * dt)).1 ⟨by positivity, hk⟩
    refine ⟨_, a', ?_⟩
    show f _ (s.q, s.dq) = 0
    rw [hq, hd]; exact h k hk

/-- On a blended trajectory not evaluated before, `aa_ct_seg_list_check` ends, and returns 0
exactly when the function accepts the state of the trajectory at every multiple of `dt` up to the
duration. -/
theorem C64_check_blend_partial (L : Limits n) (hL : L.Ok) (fuel : Nat) (p : Fin n → ℝ)
    (ps : List (Fin n → ℝ)) (cs : List (Pb n)) (T : ℝ)
    (h : pbGenerate L fuel (p :: ps) = some (cs, T)) (dt : ℝ) (hdt : 0 < dt) (st : St n)
    (f : ℝ → (Fin n → ℝ) × (Fin n → ℝ) → Int) :
    ∃ Q D, Follows (pbSegs none cs) T Q D ∧
      ∃ fuel r, listCheck (pbSegs none cs) dt (fun t s => f t (s.q, s.dq)) fuel none st 0 = some r ∧
        (r = 0 ↔ ∀ k : Nat, k * dt ≤ T → f (k * dt) (Q (k * dt), D (k * dt)) = 0) := by
  obtain ⟨Q, D, hF, -⟩ := C47_blend_partial L hL fuel p ps cs T h
  exact ⟨Q, D, hF, listCheck_follows (pb_chain h).1 (pb_chain h).2 hF dt hdt f st⟩

/-- The same for linear trajectories. -/
theorem C64_check_linear_partial (L : Limits n) (hL : ∀ i, L.vmin i < 0 ∧ 0 < L.vmax i)
    (p p' : Fin n → ℝ) (ps : List (Fin n → ℝ)) (segs : List (SegDq n)) (T : ℝ)
    (h : linGenerate L (p :: p' :: ps) = some (segs, T)) (dt : ℝ) (hdt : 0 < dt) (st : St n)
    (f : ℝ → (Fin n → ℝ) × (Fin n → ℝ) → Int) :
    ∃ Q D, Follows (segs.map SegDq.eval) T Q D ∧
      ∃ fuel r, listCheck (segs.map SegDq.eval) dt (fun t s => f t (s.q, s.dq)) fuel none st 0
          = some r ∧
        (r = 0 ↔ ∀ k : Nat, k * dt ≤ T → f (k * dt) (Q (k * dt), D (k * dt)) = 0) := by
  obtain ⟨Q, D, hF, -⟩ := C45_linear_partial L hL p p' ps segs T h
  exact ⟨Q, D, hF, listCheck_follows (lin_chain hL h).1 (lin_chain hL h).2 hF dt hdt f st⟩

/-- Defect: on a list evaluated before at a later time, the check accepts without looking: the
function rejects everything, the check returns 0. -/
theorem C64_violates_used_list (st : St 1) :
    (∃ st', listEval twoSegs none st (3 / 2) = some (true, st', some 1)) ∧
    listCheck twoSegs 1 (fun _ _ => 1) 1 (some 1) st 0 = some 0 ∧
    listCheck twoSegs 1 (fun _ _ => 1) 1 none st 0 = some 1 := by
  have e : ∀ it t, listEval twoSegs it st t = some (evalFrom (twoSegs.drop (it.getD 0))
      (it.getD 0) st t) := fun _ _ => if_neg (by simp [twoSegs])
  refine ⟨⟨⟨fun _ => 1 + (3 / 2 - 1) * 1, fun _ => 1, st.ddq⟩, ?_⟩, ?_, ?_⟩
  · rw [e]; norm_num [twoSegs, evalFrom, SegDq.eval]
  · rw [listCheck, e]; norm_num [twoSegs, evalFrom, SegDq.eval]
  · rw [listCheck, e]; norm_num [twoSegs, evalFrom, SegDq.eval]

/-- A two-joint, three-point trajectory for the theorems above. -/
example (calls : List (St 2 × ℝ)) (ht : (calls.map Prod.snd).Pairwise (· ≤ ·)) :
    ∃ segs T, HistoryFree (n := 2) (List.map SegDq.eval segs) 0 T calls := by
  have hL : ∀ i, slowJoint.vmin i < 0 ∧ 0 < slowJoint.vmax i := by
    intro i; fin_cases i <;> simp [slowJoint]
  obtain ⟨segs, T, h, _⟩ := C45_generates slowJoint hL ![0, 0] [![1, 0], ![1, -3]] (by
      refine .cons_cons (fun e => ?_) (.cons_cons (fun e => ?_) (.singleton _))
      · have := congrFun e 0; simp at this
      · have := congrFun e 1; simp at this)
  exact ⟨segs, T, C48_forward_linear_partial slowJoint hL _ _ _ _ _ h calls ht⟩

end Verif.Ct
