import Verif.Model.SgLim
import Verif.Prop.SgIndex

/-!
# C80: configuration limits
-/

namespace Verif.Sg

variable {P K : Type}

/-! ## Specification: what a history of calls has set -/

/-- The calls of a history that concern frames and indices. -/
def sgOps (os : List (LOp P K)) : List (Op P) :=
  os.filterMap (fun o => match o with | .sg o => some o | .set .. => none)

/-- The values last passed to `aa_rx_sg_set_limit_*` for kind `k` of configuration `c`. -/
def lastLim (os : List (LOp P K)) (k : LimKind) (c : String) : Option (K × K) :=
  os.foldl (fun r o =>
    match o with
    | .sg _ => r
    | .set k' c' lo hi => if k' = k ∧ c' = c then some (lo, hi) else r) none

/-- Some limit of configuration `c` was set. -/
def EverSet (os : List (LOp P K)) (c : String) : Prop := ∃ k lo hi, LOp.set k c lo hi ∈ os

theorem lastLim_append_sg (os : List (LOp P K)) (o : Op P) (k : LimKind) (c : String) :
    lastLim (os ++ [.sg o]) k c = lastLim os k c := by simp [lastLim]

theorem lastLim_append_set (os : List (LOp P K)) (k' : LimKind) (c' : String) (lo hi : K)
    (k : LimKind) (c : String) :
    lastLim (os ++ [.set k' c' lo hi]) k c =
      if k' = k ∧ c' = c then some (lo, hi) else lastLim os k c := by simp [lastLim]

theorem everSet_append_sg (os : List (LOp P K)) (o : Op P) (c : String) :
    EverSet (os ++ [.sg o]) c ↔ EverSet os c := by simp [EverSet]

theorem everSet_append_set (os : List (LOp P K)) (k' : LimKind) (c' : String) (lo hi : K)
    (c : String) : EverSet (os ++ [.set k' c' lo hi]) c ↔ EverSet os c ∨ c = c' := by
  unfold EverSet
  constructor
  · rintro ⟨k, a, b, h⟩
    rcases List.mem_append.1 h with h | h
    · exact Or.inl ⟨k, a, b, h⟩
    · simp at h; exact Or.inr h.2.1
  · rintro (⟨k, a, b, h⟩ | rfl)
    · exact ⟨k, a, b, List.mem_append_left _ h⟩
    · exact ⟨k', lo, hi, by simp⟩

/-! ## Invariant -/

/-- The limit structures hold what the history has set. -/
structure LInv (os : List (LOp P K)) (s : LGraph P K) : Prop where
  run : run create (sgOps os) = some s.g
  ever : ∀ c, (s.lmap c).isSome ↔ EverSet os c
  val : ∀ c p, s.lmap c = some p → ∃ l, s.heap[p]? = some l ∧ ∀ k, l.get k = lastLim os k c
  inj : ∀ c c' p, s.lmap c = some p → s.lmap c' = some p → c = c'

theorem lastLim_none {os : List (LOp P K)} {c : String} (h : ¬ EverSet os c) (k : LimKind) :
    lastLim os k c = none := by
  induction os using List.reverseRecOn with
  | nil => rfl
  | append_singleton os o ih =>
    cases o with
    | sg o =>
      rw [lastLim_append_sg]
      exact ih (fun h' => h ((everSet_append_sg _ _ _).2 h'))
    | set k' c' lo hi =>
      rw [lastLim_append_set, if_neg]
      · exact ih (fun h' => h ((everSet_append_set _ _ _ _ _ _).2 (Or.inl h')))
      · rintro ⟨-, rfl⟩
        exact h ((everSet_append_set _ _ _ _ _ _).2 (Or.inr rfl))

theorem Lim.get_set (l : Lim K) (k k' : LimKind) (lo hi : K) :
    (l.set k lo hi).get k' = if k = k' then some (lo, hi) else l.get k' := by
  cases k <;> cases k' <;> simp [Lim.set, Lim.get]

theorem Lim.get_zero (k : LimKind) : (Lim.zero : Lim K).get k = none := by cases k <;> rfl

/-- `get_limits` gives a structure of the configuration and changes nothing that has been set. -/
theorem getLimits_inv {os : List (LOp P K)} {s : LGraph P K} (h : LInv os s) (c : String) :
    let r := getLimits s c
    r.1.g = s.g ∧ r.1.limits = s.limits ∧ r.1.lmap c = some r.2 ∧
      (∀ c', c' ≠ c → r.1.lmap c' = s.lmap c') ∧ (∀ p, s.lmap c = some p → r.2 = p) ∧
      (∀ c' p, r.1.lmap c' = some p →
        ∃ l, r.1.heap[p]? = some l ∧ ∀ k, l.get k = lastLim os k c') ∧
      (∀ c1 c2 p, r.1.lmap c1 = some p → r.1.lmap c2 = some p → c1 = c2) := by
  intro r
  cases hc : s.lmap c with
  | some p =>
    have hr : r = (s, p) := by simp [r, getLimits, hc]
    rw [hr]
    exact ⟨rfl, rfl, hc, fun _ _ => rfl, fun q hq => Option.some.inj hq, h.val, h.inj⟩
  | none =>
    have hr : r = (⟨s.g, s.heap ++ [Lim.zero], Function.update s.lmap c (some s.heap.length),
        s.limits⟩, s.heap.length) := by
      simp [r, getLimits, hc]
    have hlt : ∀ c' p, s.lmap c' = some p → p < s.heap.length := by
      intro c' p hp
      obtain ⟨l, hl, -⟩ := h.val c' p hp
      exact (List.getElem?_eq_some_iff.1 hl).1
    rw [hr]
    refine ⟨rfl, rfl, by simp, fun c' hc' => by simp [Function.update_of_ne hc'], by simp, ?_, ?_⟩
    · intro c' p hp
      by_cases hcc : c' = c
      · subst hcc
        simp at hp
        subst hp
        refine ⟨Lim.zero, by simp, fun k => ?_⟩
        rw [Lim.get_zero, lastLim_none]
        rw [← h.ever, hc]; simp
      · simp only [Function.update_of_ne hcc] at hp
        obtain ⟨l, hl, hk⟩ := h.val c' p hp
        refine ⟨l, ?_, hk⟩
        show (s.heap ++ [Lim.zero])[p]? = _
        rw [List.getElem?_append_left (hlt c' p hp), hl]
    · intro c1 c2 p h1 h2
      by_cases e1 : c1 = c <;> by_cases e2 : c2 = c
      · rw [e1, e2]
      · subst e1
        simp only [Function.update_self, Function.update_of_ne e2, Option.some.injEq] at h1 h2
        have := hlt _ _ h2
        omega
      · subst e2
        simp only [Function.update_self, Function.update_of_ne e1, Option.some.injEq] at h1 h2
        have := hlt _ _ h1
        omega
      · simp only [Function.update_of_ne e1, Function.update_of_ne e2] at h1 h2
        exact h.inj _ _ _ h1 h2

theorem setLimit_inv {os : List (LOp P K)} {s : LGraph P K} (h : LInv os s) (k : LimKind)
    (c : String) (lo hi : K) :
    LInv (os ++ [.set k c lo hi]) (setLimit s k c lo hi) ∧
      (setLimit s k c lo hi).g = s.g ∧ (setLimit s k c lo hi).limits = s.limits ∧
      (∀ c' p, s.lmap c' = some p → (setLimit s k c lo hi).lmap c' = some p) := by
  obtain ⟨a1, a2, a3, a4, a5, a6, a7⟩ := getLimits_inv h c
  refine ⟨⟨?_, ?_, ?_, ?_⟩, a1, a2, ?_⟩
  · show run create (sgOps (os ++ [.set k c lo hi])) = some (getLimits s c).1.g
    rw [a1, ← h.run]
    simp [sgOps]
  · intro c'
    show ((getLimits s c).1.lmap c').isSome ↔ _
    rw [everSet_append_set]
    by_cases hc : c' = c
    · subst hc; rw [a3]; simp
    · rw [a4 c' hc, h.ever]; simp [hc]
  · intro c' p hp
    obtain ⟨l, hl, hk⟩ := a6 c' p hp
    by_cases hc : c' = c
    · subst hc
      have : p = (getLimits s c').2 := Option.some.inj (hp.symm.trans a3)
      subst this
      refine ⟨l.set k lo hi, ?_, fun k' => ?_⟩
      · show (List.modify _ _ _)[_]? = _
        rw [List.getElem?_modify_eq, hl]; rfl
      · rw [Lim.get_set, lastLim_append_set, hk]; simp
    · refine ⟨l, ?_, fun k' => ?_⟩
      · show (List.modify _ _ _)[_]? = _
        rw [List.getElem?_modify_ne, hl]
        intro he
        subst he
        exact hc (a7 _ _ _ hp a3)
      · rw [lastLim_append_set, hk, if_neg]
        rintro ⟨-, rfl⟩
        exact hc rfl
  · exact a7
  · intro c' p hp
    by_cases hc : c' = c
    · subst hc
      show (getLimits s c').1.lmap c' = _
      rw [a3, a5 p hp]
    · show (getLimits s c).1.lmap c' = _
      rw [a4 c' hc, hp]

theorem linv_sg {os : List (LOp P K)} {s s' : LGraph P K} {o : Op P} (h : LInv os s)
    (hs : step s.g o = some s'.g) (hh : s'.heap = s.heap) (hl : s'.lmap = s.lmap) :
    LInv (os ++ [.sg o]) s' := by
  have key : ∀ (l : List (Op P)) (g g1 g2 : Graph P), run g l = some g1 → step g1 o = some g2 →
      run g (l ++ [o]) = some g2 := by
    intro l
    induction l with
    | nil =>
      intro g g1 g2 h1 h2
      simp only [run, Option.some.injEq] at h1
      subst h1
      simp [run, h2]
    | cons a l ih =>
      intro g g1 g2 h1 h2
      simp only [List.cons_append, run] at h1 ⊢
      cases ha : step g a with
      | none => rw [ha] at h1; simp at h1
      | some ga => rw [ha] at h1; simp only at h1 ⊢; exact ih _ _ _ h1 h2
  refine ⟨?_, ?_, ?_, ?_⟩
  · have : sgOps (os ++ [.sg o]) = sgOps os ++ [o] := by simp [sgOps]
    rw [this]
    exact key _ _ _ _ h.run hs
  · intro c; rw [hl, h.ever, everSet_append_sg]
  · intro c p hp
    rw [hl] at hp
    obtain ⟨l, h1, h2⟩ := h.val c p hp
    exact ⟨l, by rw [hh, h1], fun k => by rw [h2, lastLim_append_sg]⟩
  · rw [hl]; exact h.inj

theorem lstep_inv {os : List (LOp P K)} {s s' : LGraph P K} {o : LOp P K} (h : LInv os s)
    (hs : lstep s o = some s') : LInv (os ++ [o]) s' := by
  cases o with
  | set k c lo hi =>
    simp only [lstep, Option.some.injEq] at hs
    subst hs
    exact (setLimit_inv h k c lo hi).1
  | sg o =>
    cases o with
    | init =>
      simp only [lstep, lindex] at hs
      cases hi : index s.g with
      | none => rw [hi] at hs; simp at hs
      | some r =>
        obtain ⟨st, g'⟩ := r
        rw [hi] at hs
        have hst : step s.g Op.init = some g' := by simp [step, hi]
        simp only at hs
        split_ifs at hs
        all_goals
          simp only [Option.map_some, Option.some.injEq] at hs
          subst hs
          exact linv_sg h hst rfl rfl
    | add f =>
      simp only [lstep, step, Option.map_some, Option.some.injEq] at hs
      subst hs
      exact linv_sg h rfl rfl rfl
    | rm n =>
      simp only [lstep, step, Option.map_some, Option.some.injEq] at hs
      subst hs
      exact linv_sg h rfl rfl rfl

theorem lrun_append {s s' : LGraph P K} {os1 os2 : List (LOp P K)} (h : lrun s (os1 ++ os2) = some s') :
    ∃ s1, lrun s os1 = some s1 ∧ lrun s1 os2 = some s' := by
  induction os1 generalizing s with
  | nil => exact ⟨s, rfl, h⟩
  | cons o os1 ih =>
    simp only [List.cons_append, lrun] at h ⊢
    cases ho : lstep s o with
    | none => rw [ho] at h; simp at h
    | some s1 => rw [ho] at h; exact ih h

theorem lrun_inv {os0 os : List (LOp P K)} {s s' : LGraph P K} (h : LInv os0 s)
    (hr : lrun s os = some s') : LInv (os0 ++ os) s' := by
  induction os generalizing os0 s with
  | nil => simp only [lrun, Option.some.injEq] at hr; subst hr; simpa using h
  | cons o os ih =>
    simp only [lrun] at hr
    cases ho : lstep s o with
    | none => rw [ho] at hr; simp at hr
    | some s1 =>
      rw [ho] at hr
      have := ih (lstep_inv h ho) hr
      simpa using this

theorem linv_create : LInv ([] : List (LOp P K)) lcreate :=
  ⟨rfl, fun c => by simp [lcreate, EverSet], fun c p h => by simp [lcreate] at h,
    fun c c' p h => by simp [lcreate] at h⟩

/-- The calls after the last effective `aa_rx_sg_init`: no change of frames. -/
def Quiet (os : List (LOp P K)) : Prop := ∀ o ∈ os, o = .sg Op.init ∨ ∃ k c lo hi, o = .set k c lo hi

theorem quiet_run {os0 os : List (LOp P K)} {s s' : LGraph P K} (h : LInv os0 s)
    (hd : s.g.dirty = false) (hq : Quiet os) (hr : lrun s os = some s') :
    s'.g = s.g ∧ s'.limits = s.limits ∧ ∀ c p, s.lmap c = some p → s'.lmap c = some p := by
  induction os generalizing os0 s with
  | nil => simp only [lrun, Option.some.injEq] at hr; subst hr; exact ⟨rfl, rfl, fun _ _ h => h⟩
  | cons o os ih =>
    simp only [lrun] at hr
    cases ho : lstep s o with
    | none => rw [ho] at hr; simp at hr
    | some s1 =>
      rw [ho] at hr
      have hq' : Quiet os := fun x hx => hq x (List.mem_cons_of_mem _ hx)
      have h1 := lstep_inv h ho
      have key : s1.g = s.g ∧ s1.limits = s.limits ∧ ∀ c p, s.lmap c = some p → s1.lmap c = some p := by
        rcases hq o List.mem_cons_self with rfl | ⟨k, c, lo, hi, rfl⟩
        · have hi : index s.g = some (Status.ok, s.g) := by simp [index, hd]
          simp only [lstep, lindex, hi, hd, Bool.false_eq_true, false_and, if_false, Option.map_some,
            Option.some.injEq] at ho
          subst ho
          exact ⟨rfl, rfl, fun _ _ h => h⟩
        · simp only [lstep, Option.some.injEq] at ho
          subst ho
          exact (setLimit_inv h k c lo hi).2
      obtain ⟨b1, b2, b3⟩ := ih h1 (by rw [key.1]; exact hd) hq' hr
      exact ⟨b1.trans key.1, b2.trans key.2.1, fun c p hp => b3 c p (key.2.2 c p hp)⟩

/-- The state after `aa_rx_sg_init` on changed frames and a quiet rest of the history. -/
theorem limits_state {os1 os2 : List (LOp P K)} {s1 s : LGraph P K} {g' : Graph P}
    (h1 : lrun lcreate os1 = some s1) (hd : s1.g.dirty = true)
    (hi : index s1.g = some (Status.ok, g'))
    (hr : lrun lcreate (os1 ++ .sg Op.init :: os2) = some s) (hq : Quiet os2) :
    LInv os1 s1 ∧ LInv (os1 ++ .sg Op.init :: os2) s ∧ s.g = g' ∧
      s.limits = g'.configRmap.map s1.lmap ∧ ∀ c p, s1.lmap c = some p → s.lmap c = some p := by
  have i1 := lrun_inv linv_create h1
  rw [List.nil_append] at i1
  obtain ⟨s1', e1, e2⟩ := lrun_append hr
  rw [h1] at e1
  obtain rfl := Option.some.inj e1
  set s2 : LGraph P K := { s1 with g := g', limits := g'.configRmap.map s1.lmap } with hs2
  have ho : lstep s1 (.sg Op.init) = some s2 := by simp [lstep, lindex, hi, hd, hs2]
  simp only [lrun, ho] at e2
  have i2 := lstep_inv i1 ho
  have hd2 : s2.g.dirty = false := by
    have h := hi
    unfold index at h
    rw [hd] at h
    simp only [Bool.not_true, Bool.false_eq_true, if_false] at h
    split_ifs at h
    · simp at h
    · split at h
      · simp at h
      · simp only [Option.some.injEq, Prod.mk.injEq, true_and] at h
        rw [hs2]
        simp only [← h]
  obtain ⟨q1, q2, q3⟩ := quiet_run i2 hd2 hq e2
  have i3 := lrun_inv i2 e2
  refine ⟨i1, by simpa using i3, q1, q2, q3⟩

/-! ## Theorems -/

/-- **C80**, exact: a history in which `aa_rx_sg_init` succeeds on changed frames after `os1`, and
only limits are set (or `aa_rx_sg_init` repeated) after it.  For every configuration of a joint and
every kind: `aa_rx_sg_get_limit_*` returns the values last set, before or after, when some limit
(of any kind) of the configuration had been set before; otherwise it reports no limit, also when
one was set after `aa_rx_sg_init`.  Missing: limits first set after `aa_rx_sg_init`
(`C80_violates_set_after_init`). -/
theorem C80_get_partial (os1 os2 : List (LOp P K)) (s1 s : LGraph P K) (g' : Graph P)
    (h1 : lrun lcreate os1 = some s1) (hd : s1.g.dirty = true)
    (hi : index s1.g = some (Status.ok, g'))
    (hr : lrun lcreate (os1 ++ .sg Op.init :: os2) = some s) (hq : Quiet os2)
    (hf : Forest (contents (sgOps os1))) (he : contents (sgOps os1) "" = none)
    (c : String) (hc : UsesConfig (contents (sgOps os1)) c) (k : LimKind) :
    (EverSet os1 c →
      getLimit s k (configId s.g c) = some (lastLim (os1 ++ .sg Op.init :: os2) k c)) ∧
    (¬ EverSet os1 c → getLimit s k (configId s.g c) = some none) := by
  obtain ⟨i1, i3, hg, hlims, q3⟩ := limits_state h1 hd hi hr hq
  have hreach := reach_run reach_create i1.run
  have hne : ∀ f ∈ s1.g.map, f.name ≠ "" := by
    intro f hm h0
    rw [mem_map_iff i1.run, h0, he] at hm
    simp at hm
  obtain ⟨st, hs, hm, -⟩ := reach_indexed hreach hi (forest_acyclic i1.run hf) hne
  obtain ⟨j, h6, h7⟩ : ∃ j : Nat, g'.configRmap[j]? = some c ∧ configId g' c = j := by
    obtain ⟨nm, f, h3, h4, rfl⟩ := hc
    obtain ⟨i, e, h5, rfl, -⟩ := hs.exists_entry (hm ▸ (contents_name i1.run h3).2)
    obtain ⟨j, -, h6, -, h8⟩ := hs.frameConfig_entry h5 h4
    exact ⟨j, by rw [hs.rmap]; exact h6, h8⟩
  have c2 : 0 ≤ configId g' c := by omega
  have c5 : g'.configRmap[(configId g' c).toNat]? = some c := by
    rw [h7, Int.toNat_natCast, h6]
  have hlim : s.limits[(configId s.g c).toNat]? = some (s1.lmap c) := by
    rw [hg, hlims]
    simp only [List.getElem?_map, c5, Option.map_some]
  constructor
  · intro h
    obtain ⟨p, hp⟩ := Option.isSome_iff_exists.1 ((i1.ever c).2 h)
    obtain ⟨l, hl, hk⟩ := i3.val c p (q3 c p hp)
    unfold getLimit
    rw [if_neg (by rw [hg]; omega), hlim, hp]
    simp only [hl, Option.map_some, hk]
  · intro h
    have hp : s1.lmap c = none := by
      cases hp : s1.lmap c with
      | none => rfl
      | some p => exact absurd ((i1.ever c).1 (by rw [hp]; rfl)) h
    unfold getLimit
    rw [if_neg (by rw [hg]; omega), hlim, hp]

/-- Every configuration number below the number of configurations can be asked for. -/
theorem C80_defined (os1 os2 : List (LOp P K)) (s1 s : LGraph P K) (g' : Graph P)
    (h1 : lrun lcreate os1 = some s1) (hd : s1.g.dirty = true)
    (hi : index s1.g = some (Status.ok, g'))
    (hr : lrun lcreate (os1 ++ .sg Op.init :: os2) = some s) (hq : Quiet os2)
    (hf : Forest (contents (sgOps os1))) (he : contents (sgOps os1) "" = none) :
    ∃ n : Nat, configCount s.g = some n ∧
      ∀ (i : Nat) (k : LimKind), i < n → ∃ r, getLimit s k i = some r := by
  obtain ⟨i1, i3, hg, hlims, q3⟩ := limits_state h1 hd hi hr hq
  have hreach := reach_run reach_create i1.run
  have hne : ∀ f ∈ s1.g.map, f.name ≠ "" := by
    intro f hm h0
    rw [mem_map_iff i1.run, h0, he] at hm
    simp at hm
  obtain ⟨st, hs, hm, -, -, hn⟩ := reach_indexed hreach hi (forest_acyclic i1.run hf) hne
  refine ⟨st.configSize, ?_, fun i k hik => ?_⟩
  · rw [hg]; exact hn hd
  · rw [hs.inv.size] at hik
    have hget : s.limits[i]? = some (s1.lmap st.configRmap[i]) := by
      rw [hlims, hs.rmap, List.getElem?_map, List.getElem?_eq_getElem hik]; rfl
    unfold getLimit
    rw [if_neg (by omega), Int.toNat_natCast, hget]
    cases hp : s1.lmap st.configRmap[i] with
    | none => exact ⟨none, rfl⟩
    | some p =>
      obtain ⟨l, hl, -⟩ := i3.val _ p (q3 _ p hp)
      exact ⟨l.get k, by simp [hl]⟩

/-- The history of `C80_violates_set_after_init`. -/
def lateOps : List (LOp Unit Int) :=
  [.sg (Op.add (fr "a" "" Kind.revolute "q")), .sg Op.init, .set .pos "q" (-1) 1, .sg Op.init]

/-- **C80 fails** for a limit that is first set after `aa_rx_sg_init`: the vector of limits keeps the
null pointer, setting a limit does not make the indices dirty, and so even another `aa_rx_sg_init`
leaves the limit invisible. -/
theorem C80_violates_set_after_init :
    ∃ s, lrun lcreate lateOps = some s ∧ configId s.g "q" = 0 ∧
      lastLim lateOps .pos "q" = some (-1, 1) ∧ getLimit s .pos (configId s.g "q") = some none := by
  refine ⟨_, rfl, rfl, rfl, rfl⟩

/-- A history that meets the hypotheses of `C80_get_partial`: a limit is set before and another kind
after `aa_rx_sg_init`. -/
example : ∃ s, lrun lcreate ([.sg (Op.add (fr "a" "" Kind.revolute "q")), .set .pos "q" (-1) 1] ++
      LOp.sg Op.init :: [.set .vel "q" (-2) 2, .set .pos "q" (-3) (3 : Int)]) = some s ∧
    getLimit s .pos 0 = some (some (-3, 3)) ∧ getLimit s .vel 0 = some (some (-2, 2)) ∧
    getLimit s .acc 0 = some none := ⟨_, rfl, rfl, rfl, rfl⟩

example : ∃ s g' : LGraph Unit Int, lrun lcreate [.sg (Op.add (fr "a" "" Kind.revolute "q")),
      .set .pos "q" (-1) 1] = some s ∧ s.g.dirty = true ∧ index s.g = some (Status.ok, g'.g) :=
  ⟨_, ⟨_, [], fun _ => none, []⟩, rfl, rfl, rfl⟩

end Verif.Sg
