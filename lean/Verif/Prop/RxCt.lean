import Verif.Model.RxCt
import Verif.Prop.Ik
import Verif.Prop.OdeSol
import Verif.Prop.SgChain
import Verif.Prop.SgLimUse
import Verif.Prop.TrajList

/-!
# C97, C98: joint paths of workspace trajectories, and the point lists of paths
-/

namespace Verif.Ik

open Verif.Tf Verif.Sg

/-! ## Specification -/

/-- `y` is the allowed value nearest to `x`. -/
def Nearest (l : Option (ℝ × ℝ)) (x y : ℝ) : Prop :=
  Allowed l y ∧ ∀ z, Allowed l z → |x - y| ≤ |x - z|

/-- The states of an integration by the classical Runge-Kutta method with step `dt` from time zero. -/
def IsRun (f : ℝ → (Nat → ℝ) → (Nat → ℝ)) (dt : ℝ) (x : Nat → Nat → ℝ) : Prop :=
  ∀ k : Nat, x (k + 1) = Ode.rk4 f (k * dt) dt (x k)

/-- `n` steps of `dt` are the fewest, but at least one, that reach `dur`. -/
def Fewest (dt dur : ℝ) (n : Nat) : Prop :=
  1 ≤ n ∧ dur ≤ n * dt ∧ ∀ m : Nat, 1 ≤ m → m < n → m * dt < dur

/-! ## Proofs -/

theorem fewest_exists {dt : ℝ} (hdt : 0 < dt) (dur : ℝ) : ∃ n, Fewest dt dur n := by
  classical
  have h : ∃ n : Nat, 1 ≤ n ∧ dur ≤ n * dt := by
    obtain ⟨n, hn⟩ := exists_nat_ge (dur / dt)
    refine ⟨n + 1, by omega, ?_⟩
    rw [div_le_iff₀ hdt] at hn
    push_cast
    linarith
  refine ⟨Nat.find h, (Nat.find_spec h).1, (Nat.find_spec h).2, fun m h1 h2 => ?_⟩
  have := Nat.find_min h h2
  by_contra hc
  exact this ⟨h1, not_lt.1 hc⟩

theorem run_exists (f : ℝ → (Nat → ℝ) → (Nat → ℝ)) (dt : ℝ) (x0 : Nat → ℝ) :
    ∃ x, IsRun f dt x ∧ x 0 = x0 :=
  ⟨fun k => Nat.rec x0 (fun k y => Ode.rk4 f (k * dt) dt y) k, fun _ => rfl, rfl⟩

/-- The loop of the solver: `n` more turns from turn `m`. -/
theorem fixed_tjx {f : ℝ → (Nat → ℝ) → (Nat → ℝ)} {dt dur : ℝ} {x : Nat → Nat → ℝ} (hx : IsRun f dt x) :
    ∀ (n m fuel : Nat) (calls : List (Ode.Call (Nat → ℝ))), n + 1 ≤ fuel → dur ≤ (m + n + 1 : Nat) * dt →
      (∀ j : Nat, j < n → (m + j + 1 : Nat) * dt < dur) →
      ∃ r, Ode.fixedLoop Ode.rk4 f (tjxCheck dur) dt fuel (m * dt) (x m) () calls = some r ∧ r.ret = 0 ∧
        r.calls.map Ode.Call.x = calls.map Ode.Call.x ++ (List.range (n + 1)).map fun j => x (m + 1 + j) := by
  intro n
  induction n with
  | zero =>
    intro m fuel calls hf hd _
    obtain ⟨fuel, rfl⟩ : ∃ k, fuel = k + 1 := ⟨fuel - 1, by omega⟩
    have ht : dur ≤ m * dt + dt := by push_cast at hd; linarith
    refine ⟨_, by rw [Ode.fixedLoop, if_pos (by simp [tjxCheck, ht])], ?_, ?_⟩
    · simp [tjxCheck, ht, Ode.code]
    · simp [← hx m]
  | succ n ih =>
    intro m fuel calls hf hd hj
    obtain ⟨fuel, rfl⟩ : ∃ k, fuel = k + 1 := ⟨fuel - 1, by omega⟩
    have ht : ¬ dur ≤ m * dt + dt := by
      have := hj 0 (by omega)
      push_cast at this
      linarith
    rw [Ode.fixedLoop, if_neg (by simp [tjxCheck, ht])]
    simp only [tjxCheck, ← hx m]
    have e : (m : ℝ) * dt + dt = ((m + 1 : Nat) : ℝ) * dt := by push_cast; ring
    rw [e]
    obtain ⟨r, h1, h2, h3⟩ := ih (m + 1) fuel (calls ++ [⟨((m + 1 : Nat) : ℝ) * dt, x (m + 1),
      f (((m + 1 : Nat) : ℝ) * dt) (x (m + 1)),
      if dur ≤ ((m + 1 : Nat) : ℝ) * dt then 1 else 0, x (m + 1), f (((m + 1 : Nat) : ℝ) * dt) (x (m + 1))⟩])
      (by omega) (by rw [show m + 1 + n + 1 = m + (n + 1) + 1 by omega]; exact hd)
      (fun j hj' => by rw [show m + 1 + j + 1 = m + (j + 1) + 1 by omega]; exact hj (j + 1) (by omega))
    refine ⟨r, h1, h2, ?_⟩
    rw [h3, List.map_append, List.append_assoc]
    congr 1
    rw [List.range_succ_eq_map (n := n + 1)]
    simp only [List.map_cons, List.map_nil, List.map_map, List.singleton_append, List.cons.injEq]
    refine ⟨by simp, List.map_congr_left fun j _ => ?_⟩
    simp only [Function.comp]
    congr 1
    omega

theorem clamp_nearest {x lo hi : ℝ} (h : lo ≤ hi) : Nearest (some (lo, hi)) x (Scalar.fclamp x lo hi) := by
  have hal : ∀ z, Allowed (some (lo, hi)) z ↔ lo ≤ z ∧ z ≤ hi := by
    intro z
    constructor
    · intro hz; exact hz lo hi rfl
    · intro hz a b hab
      simp only [Option.some.injEq, Prod.mk.injEq] at hab
      obtain ⟨rfl, rfl⟩ := hab
      exact hz
  unfold Nearest
  rw [hal]
  unfold Scalar.fclamp
  split_ifs with h1 h2
  · refine ⟨⟨h, le_rfl⟩, fun z hz => ?_⟩
    rw [hal] at hz
    rw [abs_of_nonneg (by linarith), abs_of_nonneg (by linarith)]
    linarith
  · refine ⟨⟨le_rfl, h⟩, fun z hz => ?_⟩
    rw [hal] at hz
    rw [abs_of_nonpos (by linarith), abs_of_nonpos (by linarith)]
    linarith
  · refine ⟨⟨by linarith, by linarith⟩, fun z hz => ?_⟩
    rw [sub_self, abs_zero]
    exact abs_nonneg _

/-- What the code computes: the states of the run, each element clamped to `tjxLim`. -/
theorem tjxPath_eq {s : Sub} (lim : Limits) (tolDq : ℝ) {dt : ℝ} (hdt : 0 < dt)
    (f : ℝ → (Nat → ℝ) → (Nat → ℝ)) (dur : ℝ) {nAll : Nat} (hn : nAll ≠ 0) (qStart sub0 : Nat → ℝ)
    (hc : ∀ j, j < s.configCount → 0 ≤ s.configs j) :
    ∃ n x, Fewest dt dur n ∧ IsRun f dt x ∧
      (∀ i, i < s.configCount → x 0 i = qStart (s.configs i).toNat) ∧
      ∀ fuel, n ≤ fuel → tjxPath s lim tolDq dt f dur fuel nAll (some qStart) sub0 =
        some (0, some ((List.range (n + 1)).map fun k => clampAll s (fun c => some (tjxLim lim c)) (x k))) := by
  obtain ⟨n, hF⟩ := fewest_exists hdt dur
  have hget := configGet_eq s qStart s.configCount 0 sub0 (fun j _ h => hc j (by omega))
  generalize hq : writes (fun j => j) (fun j => qStart (s.configs j).toNat) s.configCount 0 sub0 = q0 at hget
  obtain ⟨x, hx, hx0⟩ := run_exists f dt q0
  refine ⟨n, x, hF, hx, fun i hi => ?_, fun fuel hf => ?_⟩
  · rw [hx0, ← hq]
    exact writes_get (fun j => j) _ _ 0 sub0 i (by omega) (by omega) (fun j' h1 _ => by omega)
  · obtain ⟨k, rfl⟩ : ∃ k, n = k + 1 := ⟨n - 1, by have := hF.1; omega⟩
    obtain ⟨r, h1, h2, h3⟩ := fixed_tjx (dur := dur) hx k 0 fuel [] hf
      (by rw [show 0 + k + 1 = k + 1 by omega]; exact hF.2.1)
      (fun j hj => hF.2.2 _ (by omega) (by omega))
    rw [Nat.cast_zero, zero_mul, hx0] at h1
    unfold tjxPath
    rw [if_neg hn]
    simp only [hget]
    rw [Ode.C42_path]
    have h4 : Ode.odeSol .rk4 (ssd s.configCount) ⟨tolDq / 16, tolDq / 2, 1 / 10, 2⟩ f (tjxCheck dur) fuel
          0 dt q0 () = some r := h1
    rw [h4]
    simp only [Option.map_some, h2, h3, List.map_nil, List.nil_append, List.map_cons, List.map_map]
    rw [List.range_succ_eq_map (n := k + 1), List.map_cons, List.map_map, hx0]
    congr 4
    refine List.map_congr_left fun j _ => ?_
    simp only [Function.comp]
    rw [show 0 + 1 + j = j + 1 by omega]

/-- **C97** `aa_rx_ct_tjx_path`, for chains whose configurations all have sound position limits: it
succeeds (given enough time), with the points at the times `0, dt, 2 dt, …` up to the first that is
not before the end of the trajectory; each point is the allowed configuration nearest to the state of
the integration, which starts at the start configuration.  Missing: configurations without limits
(`C97_violates_unlimited`) and limits that contradict themselves. -/
theorem C97_path_partial (s : Sub) (lim : Limits) (tolDq dt : ℝ) (hdt : 0 < dt)
    (f : ℝ → (Nat → ℝ) → (Nat → ℝ)) (dur : ℝ) (nAll : Nat) (hn : nAll ≠ 0) (qStart sub0 : Nat → ℝ)
    (hc : ∀ j, j < s.configCount → 0 ≤ s.configs j)
    (hlim : ∀ j, j < s.configCount → ∃ lo hi, lim (s.configs j).toNat = some (lo, hi) ∧ lo ≤ hi) :
    ∃ n x, Fewest dt dur n ∧ IsRun f dt x ∧
      (∀ i, i < s.configCount → x 0 i = qStart (s.configs i).toNat) ∧
      ∀ fuel, n ≤ fuel → ∃ pts, tjxPath s lim tolDq dt f dur fuel nAll (some qStart) sub0 =
          some (0, some pts) ∧ pts.length = n + 1 ∧
        ∀ k p, pts[k]? = some p → ∀ i, i < s.configCount → Nearest (lim (s.configs i).toNat) (x k i) (p i) := by
  obtain ⟨n, x, h1, h2, h3, h4⟩ := tjxPath_eq lim tolDq hdt f dur hn qStart sub0 hc
  refine ⟨n, x, h1, h2, h3, fun fuel hf => ⟨_, h4 fuel hf, by simp, ?_⟩⟩
  intro k p hp i hi
  rw [List.getElem?_map, Option.map_eq_some_iff] at hp
  obtain ⟨k', hk, rfl⟩ := hp
  have : k' = k := by
    obtain ⟨hlt, e⟩ := List.getElem?_eq_some_iff.1 hk
    simpa using e.symm
  subst this
  obtain ⟨lo, hi', hl, hle⟩ := hlim i hi
  have e : clampAll s (fun c => some (tjxLim lim c)) (x k') i = Scalar.fclamp (x k' i) lo hi' := by
    rw [clampAll, if_pos hi, clampAt, cidx, if_pos (hc i hi)]
    simp only [tjxLim, hl, Option.getD_some]
  rw [e, hl]
  exact clamp_nearest hle

/-- **C97**, the first point: from a start within the limits the path begins at the start.  Missing: as
for `C97_path_partial`. -/
theorem C97_start_partial (s : Sub) (lim : Limits) (tolDq dt : ℝ) (hdt : 0 < dt)
    (f : ℝ → (Nat → ℝ) → (Nat → ℝ)) (dur : ℝ) (nAll : Nat) (hn : nAll ≠ 0) (qStart sub0 : Nat → ℝ)
    (hc : ∀ j, j < s.configCount → 0 ≤ s.configs j)
    (hlim : ∀ j, j < s.configCount → ∃ lo hi, lim (s.configs j).toNat = some (lo, hi))
    (hst : ∀ j, j < s.configCount → Allowed (lim (s.configs j).toNat) (qStart (s.configs j).toNat)) :
    ∃ n, ∀ fuel, n ≤ fuel → ∃ p pts, tjxPath s lim tolDq dt f dur fuel nAll (some qStart) sub0 =
          some (0, some (p :: pts)) ∧ ∀ i, i < s.configCount → p i = qStart (s.configs i).toNat := by
  obtain ⟨n, x, -, -, h3, h4⟩ := C97_path_partial s lim tolDq dt hdt f dur nAll hn qStart sub0 hc
    (fun j hj => by
      obtain ⟨lo, hi, hl⟩ := hlim j hj
      obtain ⟨a, b⟩ := hst j hj lo hi hl
      exact ⟨lo, hi, hl, a.trans b⟩)
  refine ⟨n, fun fuel hf => ?_⟩
  obtain ⟨pts, h5, h6, h7⟩ := h4 fuel hf
  cases pts with
  | nil => simp at h6
  | cons p pts =>
    refine ⟨p, pts, h5, fun i hi => ?_⟩
    have := h7 0 p rfl i hi
    have h8 := this.2 _ (hst i hi)
    rw [h3 i hi, sub_self, abs_zero] at h8
    have := abs_nonpos_iff.1 h8
    linarith

/-- **C97**: without configurations or without a start the call is refused. -/
theorem C97_args (s : Sub) (lim : Limits) (tolDq dt : ℝ) (f : ℝ → (Nat → ℝ) → (Nat → ℝ)) (dur : ℝ)
    (fuel nAll : Nat) (start : Option (Nat → ℝ)) (sub0 : Nat → ℝ) (h : nAll = 0 ∨ start = none) :
    tjxPath s lim tolDq dt f dur fuel nAll start sub0 = some (16, none) := by
  unfold tjxPath
  by_cases hn : nAll = 0
  · rw [if_pos hn]; rfl
  · rw [if_neg hn]
    obtain rfl := h.resolve_left hn
    rfl

/-- **C97 fails** for a configuration without position limits: whatever the trajectory and the start,
it is zero in every point of the path. -/
theorem C97_violates_unlimited (s : Sub) (lim : Limits) (tolDq dt : ℝ) (hdt : 0 < dt)
    (f : ℝ → (Nat → ℝ) → (Nat → ℝ)) (dur : ℝ) (nAll : Nat) (hn : nAll ≠ 0) (qStart sub0 : Nat → ℝ)
    (hc : ∀ j, j < s.configCount → 0 ≤ s.configs j) (i : Nat) (hi : i < s.configCount)
    (hl : lim (s.configs i).toNat = none) :
    ∃ n, ∀ fuel, n ≤ fuel → ∃ p pts, tjxPath s lim tolDq dt f dur fuel nAll (some qStart) sub0 =
      some (0, some (p :: pts)) ∧ p i = 0 ∧ ∀ p' ∈ pts, p' i = 0 := by
  obtain ⟨n, x, h1, h2, h3, h4⟩ := tjxPath_eq lim tolDq hdt f dur hn qStart sub0 hc
  have hz : ∀ y : Nat → ℝ, clampAll s (fun c => some (tjxLim lim c)) y i = 0 := by
    intro y
    rw [clampAll, if_pos hi, clampAt, cidx, if_pos (hc i hi)]
    simp only [tjxLim, hl, Option.getD_none]
    unfold Scalar.fclamp
    split_ifs <;> linarith
  refine ⟨n, fun fuel hf => ?_⟩
  refine ⟨_, _, by rw [h4 fuel hf, List.range_succ_eq_map, List.map_cons], hz _, ?_⟩
  intro p' hp'
  obtain ⟨k, -, rfl⟩ := List.mem_map.1 hp'
  exact hz _

/-- The position limits that the path is clamped to are those of `aa_rx_ct_sg_limits` (C81). -/
theorem tjxLim_ct {P : Type} (s : LGraph P ℝ) (lim : Limits) (junk : Nat → EReal × EReal) (i : Nat)
    (h : getLimit s .pos i = some (lim i)) :
    ctSgLimits s junk .pos i = some (((tjxLim lim i).1 : EReal), ((tjxLim lim i).2 : EReal)) := by
  unfold ctSgLimits tjxLim
  rw [h]
  cases lim i with
  | none => simp
  | some p => rfl

/-! ## Concrete cases -/

theorem abChain_configs : ∀ j, j < abChain.configCount → 0 ≤ abChain.configs j := by
  intro j hj
  have : j = 0 := by simp [abChain] at hj; omega
  subst this
  decide

/-- A trajectory of two seconds in steps of one: three points, the last clamped to the limit. -/
example : ∃ pts, tjxPath abChain (fun _ => some (-1, 1)) 1 1 (fun _ _ => 1) 2 5 2 (some fun _ => 0)
    (fun _ => 0) = some (0, some pts) ∧ pts.length = 3 := by
  obtain ⟨n, x, h1, -, -, h4⟩ := C97_path_partial abChain (fun _ => some (-1, 1)) 1 1 one_pos
    (fun _ _ => 1) 2 2 (by norm_num) (fun _ => 0) (fun _ => 0) abChain_configs
    (fun j _ => ⟨-1, 1, rfl, by norm_num⟩)
  have hn : n = 2 := by
    obtain ⟨a, b, c⟩ := h1
    have h5 : 2 ≤ n := by
      have : (2 : ℝ) ≤ n := by simpa using b
      exact_mod_cast this
    by_contra hne
    have := c 2 (by omega) (by omega)
    norm_num at this
  subst hn
  obtain ⟨pts, h5, h6, -⟩ := h4 5 (by norm_num)
  exact ⟨pts, h5, h6⟩

/-- A start at one without limits: the path begins at zero. -/
example : ∃ n, ∀ fuel, n ≤ fuel → ∃ p pts, tjxPath abChain (fun _ => none) 1 1 (fun _ _ => 0) 2 fuel 2
    (some fun _ => 1) (fun _ => 0) = some (0, some (p :: pts)) ∧ p 0 = 0 ∧ ∀ p' ∈ pts, p' 0 = 0 :=
  C97_violates_unlimited abChain _ 1 1 one_pos _ 2 2 (by norm_num) _ _ abChain_configs 0 (by decide) rfl

end Verif.Ik

namespace Verif.Ct

/-- Point `k` of a path of points of `nq` elements, as a state with a position only. -/
def pathPoint (nq : Nat) (path : Nat → ℝ) (k : Nat) : CtState :=
  ⟨nq, 0, some fun j => path (k * nq + j), none, none, none, none, none, none, none, none⟩

theorem ptListLoop_eq {nq : Nat} (hq : 0 < nq) (nPath : Nat) (path : Nat → ℝ) :
    ∀ (m k : Nat) (l : PList CtState), k + m = nPath →
      ptListLoop nq nPath path (m + 1) (k * nq) l =
        ((List.range m).map fun j => pathPoint nq path (k + j)).foldl ptAdd l := by
  intro m
  induction m with
  | zero =>
    intro k l hk
    rw [ptListLoop, if_neg]
    · rfl
    · rw [← hk, Nat.mul_comm]; simp
  | succ m ih =>
    intro k l hk
    rw [ptListLoop, if_pos]
    · rw [show k * nq + nq = (k + 1) * nq by ring, ih (k + 1) _ (by omega), List.range_succ_eq_map,
        List.map_cons, List.foldl_cons, List.map_map]
      rw [show (fun j => pathPoint nq path (k + 1 + j)) = ((fun j => pathPoint nq path (k + j)) ∘ Nat.succ) from
        funext fun j => by simp only [Function.comp]; congr 1; omega]
      rfl
    · rw [Nat.mul_comm nq]
      exact Nat.mul_lt_mul_of_pos_right (by omega) hq

/-- **C98** `aa_rx_ct_pt_list`: for points of at least one element, the list holds copies of the points
of the path, in order, without those that are the same (within the tolerance) as the last one
before them in the list. -/
theorem C98_list (d : CtState) (nq nPath : Nat) (hq : 0 < nq) (path : Nat → ℝ) :
    (rxPtList d nq nPath path).contents =
      (((List.range nPath).map (pathPoint nq path)).destutter Differs).map stateClone := by
  unfold rxPtList
  have := ptListLoop_eq hq nPath path nPath 0 (PList.empty d) (by omega)
  rw [Nat.zero_mul] at this
  rw [this]
  simp only [Nat.zero_add]
  exact C44_back_partial d _

/-- **C98**, a path of points that differ in some element by more than the tolerance: the list has all
of them. -/
theorem C98_all (d : CtState) (nq nPath : Nat) (hq : 0 < nq) (path : Nat → ℝ)
    (hd : ∀ k, k + 1 < nPath → ∃ j, j < nq ∧ 1 / 1000 < |path (k * nq + j) - path ((k + 1) * nq + j)|) :
    (rxPtList d nq nPath path).contents =
      ((List.range nPath).map (pathPoint nq path)).map stateClone := by
  rw [C98_list d nq nPath hq path, (List.destutter_eq_self_iff _ _).2]
  rw [List.isChain_map, List.isChain_iff_getElem]
  intro k hk h
  simp only [List.length_range] at hk
  simp only [List.getElem_range] at h
  obtain ⟨-, -, h, -⟩ := h
  rcases h with ⟨h, -⟩ | ⟨f, g, hf, hg, h⟩
  · simp [pathPoint] at h
  · simp only [pathPoint, Option.some.injEq] at hf hg
    obtain ⟨j, hj, hlt⟩ := hd k hk
    have := h j hj
    rw [← hf, ← hg] at this
    simp only at this
    linarith

/-- Three points of two elements. -/
example (d : CtState) : (rxPtList d 2 3 (fun i => i)).contents =
    [stateClone (pathPoint 2 (fun i => i) 0), stateClone (pathPoint 2 (fun i => i) 1),
      stateClone (pathPoint 2 (fun i => i) 2)] := by
  rw [C98_all d 2 3 (by norm_num) (fun i => i)]
  · rfl
  · intro k _
    refine ⟨0, by norm_num, ?_⟩
    push_cast
    rw [show (k : ℝ) * 2 + 0 - ((k + 1) * 2 + 0) = -2 by ring]
    norm_num

end Verif.Ct
