import Verif.Proof.Life

namespace Verif.Life

open Finset

variable {s : St} {X : List Nat} {H rG mh : Nat → Nat} {mo : Nat → Option Nat}
  {ar : Nat → Fld → Option Given} {V : Nat → Prop}

/-! ## Plugins -/

theorem Core.dlopen (h : Core s X H rG mh mo ar V) (p : Nat) :
    Core { s with dl := upd s.dl p (s.dl p + 1) } X (upd H p (H p + 1)) rG mh mo ar
      (fun q => V q ∨ q = p) := by
  refine ⟨h.g0, h.g1, h.gN, h.m0, h.m1, h.mN, h.cnt, h.bN, fun q => ?_, fun q hq => ?_,
    fun k S q h1 h2 => .inl (h.sV k S q h1 h2), h.sN, fun m M f q d h1 h2 => ?_⟩
  · have := h.dl q
    show dlM s q + dlS s q + _ = _
    by_cases e : q = p
    · subst e; simp [upd]; omega
    · simpa [upd, e] using this
  · have e : q ≠ p := fun e => hq (.inr e)
    have := h.dlV q (fun h => hq (.inl h))
    show _ = dlM s q
    simpa [upd, e] using this
  · rcases h.lib m M f q d h1 h2 with h | h
    · exact .inl h
    · exact .inr (.inl h)

theorem rM_new (h : Core s X H rG mh mo ar V) (k : Nat) :
    rM s.nG rG (upd mh s.nM 1) mo k = if k = s.nM then 1 else rM s.nG rG mh mo k := by
  have hz := h.mN s.nM (le_refl _)
  unfold rM at hz ⊢
  by_cases e : k = s.nM
  · subst e
    simp only [upd, if_true]
    omega
  · simp [upd, e]

/-- A new mesh without own data; with `b`, its destructor closes the plugin `p` opened before. -/
theorem Core.newMesh {dl' : Nat → Nat} (h : Core s X H rG mh mo ar V) (a : Fld → Arr) (o : Option Nat)
    (ha : ∀ f b, a f ≠ .owned b) (hdl : ∀ p, dl' p = s.dl p + if o = some p then 1 else 0)
    (hl : ∀ f p d, a f = .lib p d → o = some p ∨ V p) :
    Core { s with meshes := upd s.meshes s.nM (some ⟨1, a, o⟩), nM := s.nM + 1, dl := dl' } X H rG
      (upd mh s.nM 1) mo (upd ar s.nM fun f => given s (a f)) V := by
  refine ⟨h.g0, h.g1, h.gN, fun k hk => ?_, fun k hk => ?_, fun k hk => ?_, fun b => ?_, h.bN, fun p => ?_,
    fun p hp => ?_, h.sV, h.sN, ?_⟩
  · dsimp only at hk ⊢
    rw [rM_new h] at hk
    by_cases e : k = s.nM
    · rw [if_pos e] at hk; omega
    · rw [if_neg e] at hk
      simp only [upd, e, if_false]
      exact h.m0 k hk
  · dsimp only at hk ⊢
    rw [rM_new h] at hk ⊢
    by_cases e : k = s.nM
    · subst e
      refine ⟨⟨1, a, o⟩, by simp only [upd, if_true], by simp, fun f => ?_⟩
      simp only [upd, if_true]
      exact given_owned fun b hb => absurd hb (ha f b)
    · rw [if_neg e] at hk ⊢
      obtain ⟨M, k1, k2, k3⟩ := h.m1 k hk
      refine ⟨M, by simp only [upd, e, if_false]; exact k1, k2, fun f => ?_⟩
      simp only [upd, e, if_false]
      rw [← k3 f]
      exact given_owned fun _ _ => rfl
  · dsimp only at hk ⊢
    rw [rM_new h, if_neg (by omega)]
    exact h.mN k (by omega)
  · have k := h.cnt b
    have e := sum_new s.nM s.meshes (some ⟨1, a, o⟩) (fM b)
    have e' : fM b (some ⟨1, a, o⟩) = 0 := by
      refine List.count_eq_zero.2 fun hmem => ?_
      simp only [arrs, List.mem_cons, List.not_mem_nil, or_false] at hmem
      rcases hmem with h | h | h | h | h <;> exact ha _ b h.symm
    simp only [Life.cnt] at k ⊢
    omega
  · have k := h.dl p
    have e := sum_new s.nM s.meshes (some ⟨1, a, o⟩) (fD p)
    have e' : fD p (some ⟨1, a, o⟩) = if o = some p then 1 else 0 := rfl
    have := hdl p
    simp only [dlM, dlS] at k ⊢
    omega
  · have k := h.dlV p hp
    have e := sum_new s.nM s.meshes (some ⟨1, a, o⟩) (fD p)
    have e' : fD p (some ⟨1, a, o⟩) = if o = some p then 1 else 0 := rfl
    have := hdl p
    simp only [dlM] at k ⊢
    omega
  · intro k M' f p d k1 k2
    dsimp only at k1
    by_cases e : k = s.nM
    · subst e
      simp only [upd, if_true, Option.some.injEq] at k1
      subst k1
      exact hl f p d k2
    · simp only [upd, e, if_false] at k1
      exact h.lib k M' f p d k1 k2

/-! ## Geometry objects -/

/-- A new geometry object takes over a reference to its mesh. -/
theorem Core.newGeom {mh' : Nat → Nat} (h : Core s X H rG mh mo ar V) (o : Option Nat)
    (hm : ∀ k, mh k = mh' k + if o = some k then 1 else 0) :
    Core (geomNew s o) X H (upd rG s.nG 1) mh' (upd mo s.nG o) ar V := by
  have hr : ∀ k, rM (s.nG + 1) (upd rG s.nG 1) mh' (upd mo s.nG o) k = rM s.nG rG mh mo k := by
    intro k
    unfold rM
    rw [Finset.sum_range_succ]
    have e : ∑ g ∈ range s.nG, (if 0 < upd rG s.nG 1 g ∧ upd mo s.nG o g = some k then 1 else 0) =
        ∑ g ∈ range s.nG, if 0 < rG g ∧ mo g = some k then 1 else 0 := by
      refine Finset.sum_congr rfl fun j hj => ?_
      have : j ≠ s.nG := (mem_range.1 hj).ne
      simp [upd, this]
    rw [e, hm k]
    simp [upd]
    omega
  refine ⟨fun g hg => ?_, fun g hg => ?_, fun g hg => ?_, fun k hk => ?_, fun k hk => ?_, fun k hk => ?_,
    fun b => ?_, h.bN, h.dl, h.dlV, h.sV, h.sN, h.lib⟩
  · by_cases e : g = s.nG
    · subst e; simp [upd] at hg
    · simp only [geomNew, upd, e, if_false] at hg ⊢
      exact h.g0 g hg
  · by_cases e : g = s.nG
    · subst e; simp [geomNew, upd]
    · simp only [geomNew, upd, e, if_false] at hg ⊢
      exact h.g1 g hg
  · simp only [geomNew] at hg
    have e : g ≠ s.nG := by omega
    simp only [upd, e, if_false]
    exact h.gN g (by omega)
  · simp only [geomNew] at hk ⊢
    rw [hr] at hk
    exact h.m0 k hk
  · simp only [geomNew] at hk ⊢
    rw [hr] at hk ⊢
    exact h.m1 k hk
  · simp only [geomNew] at hk ⊢
    rw [hr]
    exact h.mN k hk
  · have k := h.cnt b
    have e := sum_new s.nG s.geoms (some ⟨1, o, none, none⟩) (fG b)
    have e' : fG b (some ⟨1, o, none, none⟩) = 0 := by simp [fG]
    simp only [Life.cnt, geomNew] at k ⊢
    omega

theorem Core.geomMesh (h : Core s X H rG mh mo ar V) {m : Nat} (hm : 0 < rM s.nG rG mh mo m)
    (hb : rM s.nG rG mh mo m + 1 < 2 ^ 32) :
    ∃ s', Life.geomMesh s m = .ok s' ∧ Core s' X H (upd rG s.nG 1) mh (upd mo s.nG (some m)) ar V ∧
      s'.frames = s.frames ∧ s'.sgs = s.sgs ∧ s'.nG = s.nG + 1 ∧ s'.nM = s.nM ∧ s'.nS = s.nS := by
  obtain ⟨M, hM, hrc, har⟩ := h.m1 m hm
  unfold Life.geomMesh
  rw [hM]
  dsimp only
  refine ⟨_, rfl, ?_, rfl, rfl, rfl, rfl, rfl⟩
  rw [refInc_eq (by omega)]
  have hr : ∀ k, rM s.nG rG (upd mh m (mh m + 1)) mo k =
      if k = m then rM s.nG rG mh mo m + 1 else rM s.nG rG mh mo k := by
    intro k
    unfold rM upd
    split
    · rename_i e; subst e; omega
    · rfl
  have h1 := h.setRc hM (M.rc + 1) (mh' := upd mh m (mh m + 1)) (by rw [hr, if_pos rfl, hrc]) (by omega)
    (fun k hk => by rw [hr, if_neg hk])
  refine h1.newGeom (some m) fun k => ?_
  by_cases e : k = m
  · subst e; simp [upd]
  · have e' : ¬ m = k := fun x => e x.symm
    simp [upd, e, e']

/-- Live geometry objects stay as they are if no count becomes or was zero. -/
theorem rM_congr {rG' : Nat → Nat} {n : Nat} (h : ∀ g, 0 < rG' g ↔ 0 < rG g) (k : Nat) :
    rM n rG' mh mo k = rM n rG mh mo k := by
  unfold rM
  congr 1
  exact Finset.sum_congr rfl fun g _ => by simp only [h g]

/-- A change of the count, the collision object or the buffers of a geometry object. -/
theorem Core.setGeom {X' : List Nat} (h : Core s X H rG mh mo ar V) {g : Nat} {G G' : Geom}
    (hG : s.geoms g = some G) (h0 : 0 < G'.rc) (hme : G'.mesh = G.mesh)
    (hx : ∀ b, fG b (some G') + X'.count b = fG b (some G) + X.count b) :
    Core { s with geoms := upd s.geoms g (some G') } X' H (upd rG g G'.rc) mh mo ar V := by
  obtain ⟨hlt, hpos⟩ := h.geom_lt hG
  have hl : ∀ k, 0 < upd rG g G'.rc k ↔ 0 < rG k := by
    intro k
    by_cases e : k = g
    · subst e; simp [upd, h0, hpos]
    · simp [upd, e]
  refine ⟨fun k hk => ?_, fun k hk => ?_, fun k hk => ?_, fun k hk => ?_, fun k hk => ?_, fun k hk => ?_,
    fun b => ?_, h.bN, h.dl, h.dlV, h.sV, h.sN, h.lib⟩
  · by_cases e : k = g
    · subst e; simp [upd] at hk; omega
    · simp only [upd, e, if_false] at hk ⊢
      exact h.g0 k hk
  · by_cases e : k = g
    · subst e
      obtain ⟨G1, k1, k2, k3⟩ := h.g1 k hpos
      rw [hG] at k1
      cases k1
      exact ⟨G', by simp [upd], by simp [upd], hme.trans k3⟩
    · simp only [upd, e, if_false] at hk ⊢
      exact h.g1 k hk
  · have e : k ≠ g := by rintro rfl; dsimp only at hk; omega
    simp only [upd, e, if_false]
    exact h.gN k hk
  · dsimp only at hk ⊢
    rw [rM_congr hl] at hk
    exact h.m0 k hk
  · dsimp only at hk ⊢
    rw [rM_congr hl] at hk ⊢
    exact h.m1 k hk
  · dsimp only at hk ⊢
    rw [rM_congr hl]
    exact h.mN k hk
  · have k := h.cnt b
    have e := sum_upd hlt s.geoms (some G') (fG b)
    rw [hG] at e
    have := hx b
    simp only [Life.cnt] at k ⊢
    omega

theorem upd_self {α : Type} (f : Nat → α) (i : Nat) : upd f i (f i) = f := by
  funext j
  by_cases h : j = i <;> simp [upd, h]

theorem Core.geomCopy (h : Core s X H rG mh mo ar V) {g : Nat} (hg : 0 < rG g) (hb : rG g + 1 < 2 ^ 32) :
    ∃ s', Life.geomCopy s g = .ok s' ∧ Core s' X H (upd rG g (rG g + 1)) mh mo ar V ∧
      s'.frames = s.frames ∧ s'.sgs = s.sgs ∧ s'.nG = s.nG ∧ s'.nM = s.nM ∧ s'.nS = s.nS := by
  obtain ⟨G, hG, hrc, hme⟩ := h.g1 g hg
  unfold Life.geomCopy
  rw [hG]
  dsimp only
  rw [if_neg (by omega)]
  refine ⟨_, rfl, ?_, rfl, rfl, rfl, rfl, rfl⟩
  rw [refInc_eq (by omega), hrc]
  exact h.setGeom (G' := { G with rc := rG g + 1 }) hG (Nat.succ_pos _) rfl (fun b => rfl)

theorem Core.clInit (h : Core s X H rG mh mo ar V) {g : Nat} (hg : 0 < rG g) :
    ∃ s', Life.clInit s g = .ok s' ∧ Core s' X H rG mh mo ar V ∧
      s'.frames = s.frames ∧ s'.sgs = s.sgs ∧ s'.nG = s.nG ∧ s'.nM = s.nM ∧ s'.nS = s.nS := by
  obtain ⟨G, hG, hrc, hme⟩ := h.g1 g hg
  unfold Life.clInit
  rw [hG]
  dsimp only
  cases hc : G.cl with
  | some b => exact ⟨s, rfl, h, rfl, rfl, rfl, rfl, rfl⟩
  | none =>
    refine ⟨_, rfl, ?_, rfl, rfl, rfl, rfl, rfl⟩
    have := (h.malloc 0).setGeom (g := g) (G := G) (G' := { G with cl := some s.nB }) (X' := X) hG
      (by dsimp only; omega) rfl (fun b => by
        simp only [fG, hc, List.count_cons]
        by_cases e : s.nB = b <;> simp [e]; omega)
    dsimp only at this
    rw [show upd rG g G.rc = rG by rw [hrc, upd_self]] at this
    exact this

theorem Core.glInit (h : Core s X H rG mh mo ar V) {g : Nat} (hg : 0 < rG g) :
    ∃ s', Life.glInit s g = .ok s' ∧ Core s' X H rG mh mo ar V ∧
      s'.frames = s.frames ∧ s'.sgs = s.sgs ∧ s'.nG = s.nG ∧ s'.nM = s.nM ∧ s'.nS = s.nS := by
  obtain ⟨G, hG, hrc, hme⟩ := h.g1 g hg
  unfold Life.glInit
  rw [hG]
  dsimp only
  cases hc : G.gl with
  | some b => exact ⟨s, rfl, h, rfl, rfl, rfl, rfl, rfl⟩
  | none =>
    refine ⟨_, rfl, ?_, rfl, rfl, rfl, rfl, rfl⟩
    have := (h.malloc 0).setGeom (g := g) (G := G) (G' := { G with gl := some s.nB }) (X' := X) hG
      (by dsimp only; omega) rfl (fun b => by
        simp only [fG, hc, List.count_cons]
        by_cases e : s.nB = b <;> simp [e]; omega)
    dsimp only at this
    rw [show upd rG g G.rc = rG by rw [hrc, upd_self]] at this
    exact this

/-- The last reference to a geometry object is dropped: what it owned is held by the running
function. -/
theorem Core.dropGeom (h : Core s X H rG mh mo ar V) {g : Nat} {G : Geom} (hG : s.geoms g = some G)
    (h1 : rG g = 1) :
    Core { s with geoms := upd s.geoms g none } (G.cl.toList ++ G.gl.toList ++ X) H (upd rG g 0)
      (fun k => mh k + if G.mesh = some k then 1 else 0) mo ar V := by
  obtain ⟨hlt, hpos⟩ := h.geom_lt hG
  obtain ⟨G1, k1, k2, hmo⟩ := h.g1 g hpos
  rw [hG] at k1
  cases k1
  have hr : ∀ k, rM s.nG (upd rG g 0) (fun k => mh k + if G.mesh = some k then 1 else 0) mo k =
      rM s.nG rG mh mo k := by
    intro k
    unfold rM
    have := sum_change hlt (fun j => if 0 < rG j ∧ mo j = some k then 1 else 0)
      (fun j => if 0 < upd rG g 0 j ∧ mo j = some k then 1 else 0) (fun j hj => by simp [upd, hj])
    simp only [h1, upd, if_true, ← hmo] at this
    simp only [upd]
    have e : (if 0 < 0 ∧ G.mesh = some k then 1 else 0) = 0 := by simp
    have e' : (if 0 < 1 ∧ G.mesh = some k then 1 else 0) = if G.mesh = some k then 1 else 0 := by simp
    omega
  refine ⟨fun k hk => ?_, fun k hk => ?_, fun k hk => ?_, fun k hk => ?_, fun k hk => ?_, fun k hk => ?_,
    fun b => ?_, h.bN, h.dl, h.dlV, h.sV, h.sN, h.lib⟩
  · by_cases e : k = g
    · simp [upd, e]
    · simp only [upd, e, if_false] at hk ⊢
      exact h.g0 k hk
  · by_cases e : k = g
    · subst e; simp [upd] at hk
    · simp only [upd, e, if_false] at hk ⊢
      exact h.g1 k hk
  · simp only [upd]
    split
    · rfl
    · exact h.gN k hk
  · dsimp only at hk ⊢
    rw [hr] at hk
    exact h.m0 k hk
  · dsimp only at hk ⊢
    rw [hr] at hk ⊢
    exact h.m1 k hk
  · dsimp only at hk ⊢
    rw [hr]
    exact h.mN k hk
  · have k := h.cnt b
    have e := sum_upd hlt s.geoms none (fG b)
    rw [hG] at e
    have e1 : fG b none = 0 := rfl
    have e2 : fG b (some G) = G.cl.toList.count b + G.gl.toList.count b := by
      obtain ⟨r, m, cl, gl⟩ := G
      cases cl <;> cases gl <;> simp [fG, List.count_singleton]
    simp only [Life.cnt, List.count_append] at k ⊢
    omega

theorem Core.schedule {o : Option Nat} (h : Core s (o.toList ++ X) H rG mh mo ar V) :
    Core (schedule s o) X H rG mh mo ar V := by
  cases o with
  | none => exact h
  | some b =>
    refine ⟨h.g0, h.g1, h.gN, h.m0, h.m1, h.mN, fun c => ?_, h.bN, h.dl, h.dlV, h.sV, h.sN, h.lib⟩
    have k := h.cnt c
    simp only [Life.cnt, Life.schedule, Option.toList, List.count_append, List.count_cons,
      List.count_nil] at k ⊢
    omega

theorem Core.geomDestroy (h : Core s X H rG mh mo ar V) {g : Nat} (hg : 0 < rG g) (hb : rG g < 2 ^ 32)
    (hbm : ∀ m, rM s.nG rG mh mo m < 2 ^ 32) :
    ∃ s', Life.geomDestroy s g = .ok s' ∧ Core s' X H (upd rG g (rG g - 1)) mh mo ar V ∧
      s'.frames = s.frames ∧ s'.sgs = s.sgs ∧ s'.nG = s.nG ∧ s'.nM = s.nM ∧ s'.nS = s.nS := by
  obtain ⟨G, hG, hrc, hme⟩ := h.g1 g hg
  unfold Life.geomDestroy
  rw [hG]
  dsimp only
  rw [if_neg (by omega)]
  by_cases h1 : G.rc = 1
  · rw [if_pos h1]
    have h2 := h.dropGeom hG (by omega)
    -- the mesh
    obtain ⟨s1, e1, h3, q2, q3, q4, q5, q6⟩ : ∃ s1, freeMesh { s with geoms := upd s.geoms g none } G.mesh =
        .ok s1 ∧ Core s1 (G.cl.toList ++ G.gl.toList ++ X) H (upd rG g 0) mh mo ar V ∧
        s1.frames = s.frames ∧ s1.sgs = s.sgs ∧ s1.nG = s.nG ∧ s1.nM = s.nM ∧ s1.nS = s.nS := by
      cases hgm : G.mesh with
      | none =>
        rw [hgm] at h2
        simp only [reduceCtorEq, if_false, Nat.add_zero] at h2
        exact ⟨_, rfl, h2, rfl, rfl, rfl, rfl, rfl⟩
      | some m =>
        have hr : rM s.nG (upd rG g 0) (fun k => mh k + if G.mesh = some k then 1 else 0) mo m =
            rM s.nG rG mh mo m := by
          unfold rM
          have := sum_change (h.lt_nG hg) (fun j => if 0 < rG j ∧ mo j = some m then 1 else 0)
            (fun j => if 0 < upd rG g 0 j ∧ mo j = some m then 1 else 0) (fun j hj => by simp [upd, hj])
          have hg1 : rG g = 1 := by omega
          simp only [hg1, upd, if_true, ← hme, hgm] at this
          simp only [hgm, if_true, upd]
          simp only [Nat.lt_irrefl, false_and, if_false, Nat.zero_lt_one, true_and, if_true] at this
          omega
        obtain ⟨s1, k1, k2, k3, k4, k5, k6, k7, k8, -⟩ := h2.meshDestroy (m := m)
          (by simp only [hgm, if_true]; omega) (by rw [hr]; exact hbm m)
        refine ⟨s1, k1, ?_, k4, k5, k6, k7, k8⟩
        have : upd (fun k => mh k + if G.mesh = some k then 1 else 0) m
            (mh m + (if G.mesh = some m then 1 else 0) - 1) = mh := by
          funext k
          by_cases e : k = m
          · subst e; simp [upd, hgm]
          · have e' : ¬ m = k := fun x => e x.symm
            simp [upd, e, hgm, e']
        rw [this] at k2
        exact k2
    rw [e1]
    dsimp only [Out.bind]
    -- the collision object
    obtain ⟨s2, e2, h4, r2, r3, r4, r5, r6⟩ : ∃ s2, freeCl s1 G.cl = .ok s2 ∧
        Core s2 (G.gl.toList ++ X) H (upd rG g 0) mh mo ar V ∧
        s2.frames = s1.frames ∧ s2.sgs = s1.sgs ∧ s2.nG = s1.nG ∧ s2.nM = s1.nM ∧ s2.nS = s1.nS := by
      cases hc : G.cl with
      | none => rw [hc] at h3; exact ⟨s1, rfl, h3, rfl, rfl, rfl, rfl, rfl⟩
      | some b =>
        rw [hc] at h3
        obtain ⟨k1, k2⟩ := h3.release
        exact ⟨_, k1, k2, rfl, rfl, rfl, rfl, rfl⟩
    rw [e2]
    dsimp only
    have hz : upd rG g (rG g - 1) = upd rG g 0 := by rw [show rG g - 1 = 0 by omega]
    rw [hz]
    have q : ∀ o : Option Nat, (Life.schedule s2 o).frames = s2.frames ∧ (Life.schedule s2 o).sgs = s2.sgs ∧
        (Life.schedule s2 o).nG = s2.nG ∧ (Life.schedule s2 o).nM = s2.nM ∧ (Life.schedule s2 o).nS = s2.nS := by
      intro o; cases o <;> exact ⟨rfl, rfl, rfl, rfl, rfl⟩
    obtain ⟨z1, z2, z3, z4, z5⟩ := q G.gl
    exact ⟨_, rfl, h4.schedule, z1.trans (r2.trans q2), z2.trans (r3.trans q3), z3.trans (r4.trans q4),
      z4.trans (r5.trans q5), z5.trans (r6.trans q6)⟩
  · rw [if_neg h1]
    refine ⟨_, rfl, ?_, rfl, rfl, rfl, rfl, rfl⟩
    rw [refDec_eq (by omega) (by omega), hrc]
    exact h.setGeom (G' := { G with rc := rG g - 1 }) hG (by dsimp only; omega) rfl (fun b => rfl)

theorem Core.releaseAll : ∀ (l : List Nat) {s : St}, Core s (l ++ X) H rG mh mo ar V →
    ∃ bl, freeAll s (l.map .owned) = .ok { s with blocks := bl } ∧
      Core { s with blocks := bl } X H rG mh mo ar V := by
  intro l
  induction l with
  | nil => intro s h; exact ⟨s.blocks, rfl, h⟩
  | cons b l ih =>
    intro s h
    obtain ⟨k1, k2⟩ := Core.release (X := l ++ X) h
    obtain ⟨bl, k3, k4⟩ := ih k2
    refine ⟨bl, ?_, k4⟩
    simp only [List.map_cons, freeAll, freeArr]
    rw [k1]
    exact k3

theorem Core.cleanup (h : Core s X H rG mh mo ar V) :
    ∃ s', Life.cleanup s = .ok s' ∧ Core s' X H rG mh mo ar V ∧ s'.frames = s.frames ∧
      s'.sgs = s.sgs ∧ s'.nG = s.nG ∧ s'.nM = s.nM ∧ s'.nS = s.nS ∧ s'.dead = [] := by
  have h1 : Core { s with dead := [] } (s.dead ++ X) H rG mh mo ar V := by
    refine ⟨h.g0, h.g1, h.gN, h.m0, h.m1, h.mN, fun c => ?_, h.bN, h.dl, h.dlV, h.sV, h.sN, h.lib⟩
    have k := h.cnt c
    simp only [Life.cnt, List.count_append, List.count_nil] at k ⊢
    omega
  obtain ⟨bl, k1, k2⟩ := h1.releaseAll
  exact ⟨_, k1, k2, rfl, rfl, rfl, rfl, rfl, rfl⟩

end Verif.Life
