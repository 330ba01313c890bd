import Verif.Proof.LifeStep

/-! C93 and C94: lifetimes of meshes, geometry objects and scene graphs, and of the plugins that they
were loaded from. -/

namespace Verif.Life

open Finset

/-! ## C93 -/

/-- Something that will release the block: a mesh, the collision object or the buffers of a geometry
object, or the list of buffers to be released. -/
inductive Owns (s : St) (b : Nat) : Prop where
  | mesh (m : Nat) (M : Mesh) (f : Fld) : s.meshes m = some M → M.arr f = .owned b → Owns s b
  | cl (g : Nat) (G : Geom) : s.geoms g = some G → G.cl = some b → Owns s b
  | gl (g : Nat) (G : Geom) : s.geoms g = some G → G.gl = some b → Owns s b
  | dead : b ∈ s.dead → Owns s b

theorem bounded_init : Bounded Led.init := by
  refine ⟨fun g => ?_, fun m => ?_⟩ <;> simp [Led.refsG, Led.refsM, Led.init]

/-- No call of a client that follows the rules uses or releases what is gone, or aborts; objects, meshes
and graphs are there exactly as long as somebody refers to them. -/
theorem C93_live_partial (os : List Op) (h : Good Led.init os) :
    ∃ s, run init os = .ok s ∧
      (∀ g, (∃ G, s.geoms g = some G) ↔ 0 < (Led.init.after os).refsG g) ∧
      (∀ m, (∃ M, s.meshes m = some M) ↔ 0 < (Led.init.after os).refsM m) ∧
      (∀ k, (∃ S, s.sgs k = some S) ↔ (Led.init.after os).sg k = true) ∧
      (∀ g G, s.geoms g = some G → G.rc = (Led.init.after os).refsG g ∧
        G.mesh = (Led.init.after os).mesh g) ∧
      (∀ m M, s.meshes m = some M → M.rc = (Led.init.after os).refsM m) ∧
      (∀ k f, s.frames.any (isAt k f) = (Led.init.after os).fr k f) := by
  obtain ⟨s, e, r⟩ := rel_run os rel_init bounded_init h
  have c := r.core
  have hM : ∀ m, (Led.init.after os).refsM m = rM s.nG (Led.init.after os).refsG (Led.init.after os).mh
      (Led.init.after os).mesh m := fun m => by rw [r.nG, refsM_eq]
  refine ⟨s, e, fun g => ⟨?_, fun hg => ?_⟩, fun m => ⟨?_, fun hm => ?_⟩, fun k => ?_, fun g G hG => ?_,
    fun m M hm => ?_, r.fr⟩
  · rintro ⟨G, hG⟩
    exact (c.geom_lt hG).2
  · obtain ⟨G, hG, -⟩ := c.g1 g hg
    exact ⟨G, hG⟩
  · rintro ⟨M, hm⟩
    rw [hM]
    exact (c.mesh_lt hm).2
  · rw [hM] at hm
    obtain ⟨M, k, -⟩ := c.m1 m hm
    exact ⟨M, k⟩
  · rw [← r.sg k, Option.isSome_iff_exists]
  · obtain ⟨G', k1, k2, k3⟩ := c.g1 g (c.geom_lt hG).2
    rw [hG] at k1
    cases k1
    exact ⟨k2, k3⟩
  · obtain ⟨M', k1, k2, k3⟩ := c.m1 m (c.mesh_lt hm).2
    rw [hm] at k1
    cases k1
    rw [hM]
    exact k2

/-- Every array of a mesh is what was last given for it. -/
theorem C93_data_partial (os : List Op) (h : Good Led.init os) (s : St) (e : run init os = .ok s) (m : Nat)
    (M : Mesh) (hm : s.meshes m = some M) (f : Fld) : given s (M.arr f) = (Led.init.after os).arr m f := by
  obtain ⟨s', e', r⟩ := rel_run os rel_init bounded_init h
  rw [e] at e'
  cases e'
  obtain ⟨M', k1, k2, k3⟩ := r.core.m1 m (r.core.mesh_lt hm).2
  rw [hm] at k1
  cases k1
  exact k3 f

theorem owns_of_cnt {s : St} {b : Nat} (h : 0 < cnt s [] b) : Owns s b := by
  unfold cnt at h
  simp only [List.count_nil, Nat.add_zero] at h
  by_cases h1 : 0 < ∑ m ∈ range s.nM, fM b (s.meshes m)
  · obtain ⟨m, -, hm⟩ := Finset.exists_ne_zero_of_sum_ne_zero h1.ne'
    cases hM : s.meshes m with
    | none => rw [hM] at hm; exact absurd rfl hm
    | some M =>
      rw [hM] at hm
      have := List.count_pos_iff.1 (Nat.pos_of_ne_zero hm)
      simp only [arrs, List.mem_cons, List.not_mem_nil, or_false] at this
      rcases this with k | k | k | k | k <;> exact .mesh m M _ hM k.symm
  · by_cases h2 : 0 < ∑ g ∈ range s.nG, fG b (s.geoms g)
    · obtain ⟨g, -, hg⟩ := Finset.exists_ne_zero_of_sum_ne_zero h2.ne'
      cases hG : s.geoms g with
      | none => rw [hG] at hg; exact absurd rfl hg
      | some G =>
        rw [hG] at hg
        by_cases k : G.cl = some b
        · exact .cl g G hG k
        · by_cases k' : G.gl = some b
          · exact .gl g G hG k'
          · simp [fG, k, k'] at hg
    · exact .dead (List.count_pos_iff.1 (by omega))

theorem cnt_of_owns {L : Led} {s : St} (r : Rel L s) {b : Nat} (h : Owns s b) : 0 < cnt s [] b := by
  unfold cnt
  cases h with
  | mesh m M f hM hf =>
    have := sum_ge (r.core.mesh_lt hM).1 fun m => fM b (s.meshes m)
    have h1 : 0 < fM b (s.meshes m) := by
      rw [hM]
      exact List.count_pos_iff.2 (hf ▸ arrs_mem M f)
    omega
  | cl g G hG hc =>
    have := sum_ge (r.core.geom_lt hG).1 fun g => fG b (s.geoms g)
    have h1 : 0 < fG b (s.geoms g) := by
      rw [hG]
      simp [fG, hc]
    omega
  | gl g G hG hc =>
    have := sum_ge (r.core.geom_lt hG).1 fun g => fG b (s.geoms g)
    have h1 : 0 < fG b (s.geoms g) := by
      rw [hG]
      simp [fG, hc]
    omega
  | dead hd =>
    have := List.count_pos_iff.2 hd
    omega

/-- A block is allocated exactly if something will release it: nothing leaks, nothing dangles. -/
theorem C93_blocks_partial (os : List Op) (h : Good Led.init os) (s : St) (e : run init os = .ok s) (b : Nat) :
    (∃ d, s.blocks b = some d) ↔ Owns s b := by
  obtain ⟨s', e', r⟩ := rel_run os rel_init bounded_init h
  rw [e] at e'
  cases e'
  have k := r.core.cnt b
  constructor
  · rintro ⟨d, hd⟩
    rw [hd] at k
    exact owns_of_cnt (by rw [k]; exact Nat.one_pos)
  · intro ho
    have := cnt_of_owns r ho
    cases hb : s.blocks b with
    | none => rw [hb] at k; simp only [al] at k; omega
    | some d => exact ⟨d, rfl⟩

/-- Two different places never own the same block: no double release. -/
theorem C93_owner_partial (os : List Op) (h : Good Led.init os) (s : St) (e : run init os = .ok s) (b : Nat)
    (m m' : Nat) (M M' : Mesh) (f f' : Fld) (hM : s.meshes m = some M) (hM' : s.meshes m' = some M')
    (hf : M.arr f = .owned b) (hf' : M'.arr f' = .owned b) : m = m' ∧ f = f' := by
  obtain ⟨s', e', r⟩ := rel_run os rel_init bounded_init h
  rw [e] at e'
  cases e'
  have k := r.core.cnt b
  have hle : al (s.blocks b) ≤ 1 := by cases s.blocks b <;> simp [al]
  have hs : ∑ m ∈ range s.nM, fM b (s.meshes m) ≤ 1 := by unfold cnt at k; omega
  have hlt := (r.core.mesh_lt hM).1
  have hlt' := (r.core.mesh_lt hM').1
  have p1 : 0 < fM b (s.meshes m) := by rw [hM]; exact List.count_pos_iff.2 (hf ▸ arrs_mem M f)
  have p2 : 0 < fM b (s.meshes m') := by rw [hM']; exact List.count_pos_iff.2 (hf' ▸ arrs_mem M' f')
  have hmm : m = m' := by
    by_contra hne
    have h1 := Finset.add_sum_erase (range s.nM) (fun j => fM b (s.meshes j)) (mem_range.2 hlt)
    have h2 : fM b (s.meshes m') ≤ ∑ j ∈ (range s.nM).erase m, fM b (s.meshes j) :=
      Finset.single_le_sum (f := fun j => fM b (s.meshes j)) (fun _ _ => Nat.zero_le _)
        (Finset.mem_erase.2 ⟨fun x => hne x.symm, mem_range.2 hlt'⟩)
    omega
  subst hmm
  rw [hM] at hM'
  cases hM'
  refine ⟨rfl, ?_⟩
  have hc : (arrs M).count (.owned b) ≤ 1 := by
    have := sum_ge hlt fun j => fM b (s.meshes j)
    rw [hM] at this
    exact this.trans hs
  by_contra hne
  have : 2 ≤ (arrs M).count (.owned b) := by
    unfold arrs
    simp only [List.count_cons, List.count_nil]
    cases f <;> cases f' <;> first | exact absurd rfl hne | (simp only [hf, hf', beq_self_eq_true, if_true]; omega)
  omega

/-- When nobody refers to anything any more and the buffers have been cleaned up, no memory is left. -/
theorem C93_end_partial (os : List Op) (h : Good Led.init (os ++ [.cleanup]))
    (hg : ∀ g, (Led.init.after (os ++ [.cleanup])).refsG g = 0)
    (hm : ∀ m, (Led.init.after (os ++ [.cleanup])).mh m = 0) :
    ∃ s, run init (os ++ [.cleanup]) = .ok s ∧ (∀ b, s.blocks b = none) ∧ (∀ m, s.meshes m = none) ∧
      ∀ g, s.geoms g = none := by
  have split : ∀ (os : List Op) (s s' : St), run s (os ++ [.cleanup]) = .ok s' →
      ∃ s1, run s os = .ok s1 ∧ cleanup s1 = .ok s' := by
    intro os
    induction os with
    | nil =>
      intro s s' e
      obtain ⟨s1, e1, e2⟩ := Keeps.bind e
      cases e2
      exact ⟨s, rfl, e1⟩
    | cons o os ih =>
      intro s s' e
      obtain ⟨s1, e1, e2⟩ := Keeps.bind e
      obtain ⟨s2, k1, k2⟩ := ih s1 s' e2
      refine ⟨s2, ?_, k2⟩
      unfold run
      rw [e1]
      exact k1
  have goodInit : ∀ (os : List Op) (L : Led), Good L (os ++ [.cleanup]) → Good L os := by
    intro os
    induction os with
    | nil => intro L _; trivial
    | cons o os ih =>
      intro L hL
      obtain ⟨g1, g2, g3, g4⟩ := hL
      exact ⟨g1, g2, g3, ih _ g4⟩
  obtain ⟨s, e, r⟩ := rel_run _ rel_init bounded_init h
  obtain ⟨s1, e1, e2⟩ := split os init s e
  obtain ⟨s1', e1', r1⟩ := rel_run os rel_init bounded_init (goodInit os _ h)
  rw [e1] at e1'
  cases e1'
  obtain ⟨s2, k1, -, -, -, -, -, -, kd⟩ := r1.core.cleanup
  rw [e2] at k1
  cases k1
  have hG : ∀ g, s.geoms g = none := fun g => r.core.g0 g (hg g)
  have hM : ∀ m, s.meshes m = none := fun m => r.core.m0 m (by
    unfold rM
    rw [hm m]
    simp [hg])
  refine ⟨s, e, fun b => ?_, hM, hG⟩
  cases hb : s.blocks b with
  | none => rfl
  | some d =>
    obtain ho := (C93_blocks_partial _ h s e b).1 ⟨d, hb⟩
    cases ho with
    | mesh m M f k => rw [hM] at k; cases k
    | cl g G k => rw [hG] at k; cases k
    | gl g G k => rw [hG] at k; cases k
    | dead k => rw [kd] at k; cases k

/-! ### Histories that meet the hypotheses -/

theorem bounded_of {L : Led} {a b c d : Nat} (h1 : ∀ g, L.gh g ≤ a) (h2 : L.att.card ≤ b)
    (h3 : ∀ m, L.mh m ≤ c) (h4 : L.nG ≤ d) (h5 : a + b < 2 ^ 32) (h6 : c + d < 2 ^ 32) : Bounded L := by
  refine ⟨fun g => ?_, fun m => ?_⟩
  · have := Multiset.count_le_card g (L.att.map (·.2.2))
    rw [Multiset.card_map] at this
    have := h1 g
    unfold Led.refsG
    omega
  · have := Finset.card_filter_le (range L.nG) fun g => 0 < L.refsG g ∧ L.mesh g = some m
    rw [Finset.card_range] at this
    have := h3 m
    unfold Led.refsM
    omega

/-- Numbers of references after `n` calls. -/
structure Small (L : Led) (n : Nat) : Prop where
  gh : ∀ g, L.gh g ≤ n
  att : L.att.card + 1 ≤ 2 ^ n
  mh : ∀ m, L.mh m ≤ n
  nG : L.nG ≤ n

theorem le_upd {f : Nat → Nat} {n : Nat} (h : ∀ g, f g ≤ n) (i : Nat) {x : Nat} (hx : x ≤ n + 1) :
    ∀ g, upd f i x g ≤ n + 1 := by
  intro g
  unfold upd
  split
  · exact hx
  · exact (h g).trans (Nat.le_succ n)

theorem Small.next {L : Led} {n : Nat} (h : Small L n) (o : Op) : Small (L.next o) (n + 1) := by
  have g0 : ∀ g, L.gh g ≤ n + 1 := fun g => (h.gh g).trans (Nat.le_succ n)
  have m0 : ∀ g, L.mh g ≤ n + 1 := fun g => (h.mh g).trans (Nat.le_succ n)
  have hp : 1 ≤ 2 ^ n := Nat.one_le_two_pow
  have a := h.att
  have a0 : L.att.card + 1 ≤ 2 ^ (n + 1) := by rw [pow_succ]; omega
  have n0 : L.nG ≤ n + 1 := h.nG.trans (Nat.le_succ n)
  have n1 : L.nG + 1 ≤ n + 1 := Nat.succ_le_succ h.nG
  have f0 : ∀ (p : Nat × Nat × Nat → Prop) [DecidablePred p], (L.att.filter p).card ≤ L.att.card :=
    fun p _ => Multiset.card_le_card (Multiset.filter_le p _)
  have f1 : ∀ (p : Nat × Nat × Nat → Prop) [DecidablePred p], (L.att.filter p).card + 1 ≤ 2 ^ (n + 1) :=
    fun p _ => by have := f0 p; omega
  cases o with
  | meshCreate => exact ⟨g0, a0, le_upd h.mh _ (by omega), n0⟩
  | meshDestroy m => exact ⟨g0, a0, le_upd h.mh _ (by have := h.mh m; omega), n0⟩
  | meshSet => exact ⟨g0, a0, m0, n0⟩
  | meshTexture => exact ⟨g0, a0, m0, n0⟩
  | dlMesh => exact ⟨g0, a0, le_upd h.mh _ (by omega), n0⟩
  | geomPlain => exact ⟨le_upd h.gh _ (by omega), a0, m0, n1⟩
  | geomMesh => exact ⟨le_upd h.gh _ (by omega), a0, m0, n1⟩
  | geomCopy g => exact ⟨le_upd h.gh _ (by have := h.gh g; omega), a0, m0, n0⟩
  | geomModify => exact ⟨le_upd h.gh _ (by omega), a0, m0, n1⟩
  | clInit => exact ⟨g0, a0, m0, n0⟩
  | glInit => exact ⟨g0, a0, m0, n0⟩
  | geomDestroy g => exact ⟨le_upd h.gh _ (by have := h.gh g; omega), a0, m0, n0⟩
  | cleanup => exact ⟨g0, a0, m0, n0⟩
  | sgCreate => exact ⟨g0, a0, m0, n0⟩
  | addFrame => exact ⟨g0, f1 _, m0, n0⟩
  | rmFrame => exact ⟨g0, f1 _, m0, n0⟩
  | attach k f g =>
    refine ⟨le_upd h.gh _ (by have := h.gh g; omega), ?_, m0, n0⟩
    show Multiset.card (_ ::ₘ L.att) + 1 ≤ _
    rw [Multiset.card_cons, pow_succ]
    omega
  | copyFrameGeom k f1 f2 =>
    refine ⟨g0, ?_, m0, n0⟩
    show Multiset.card (L.att + Multiset.map _ (Multiset.filter _ L.att)) + 1 ≤ _
    rw [Multiset.card_add, Multiset.card_map, pow_succ]
    have := f0 fun x => x.1 = k ∧ x.2.1 = f1
    omega
  | setLimit => exact ⟨g0, a0, m0, n0⟩
  | sgCopy k =>
    refine ⟨g0, ?_, m0, n0⟩
    show Multiset.card (L.att + Multiset.map _ (Multiset.filter _ L.att)) + 1 ≤ _
    rw [Multiset.card_add, Multiset.card_map, pow_succ]
    have := f0 fun x => x.1 = k
    omega
  | sgDestroy => exact ⟨g0, f1 _, m0, n0⟩
  | dlSg p d k f =>
    refine ⟨g0, ?_, m0, n1⟩
    show Multiset.card (_ ::ₘ Multiset.filter _ L.att) + 1 ≤ _
    rw [Multiset.card_cons, pow_succ]
    have := f0 fun x => ¬ (x.1 = k ∧ x.2.1 = f)
    omega

/-- The rules, without the bound on the counts. -/
def Rules (L : Led) : List Op → Prop
  | [] => True
  | o :: os => Allowed L o ∧ Clean L o ∧ Rules (L.next o) os

/-- Up to 31 calls cannot make too many references. -/
theorem good_short : ∀ (os : List Op) (L : Led) (n : Nat), Small L n → n + os.length ≤ 31 → Rules L os →
    Good L os := by
  intro os
  induction os with
  | nil => intro L n _ _ _; trivial
  | cons o os ih =>
    intro L n h hn hr
    rw [List.length_cons] at hn
    have h1 := h.next o
    have hpow : 2 ^ (n + 1) ≤ 2 ^ 31 := Nat.pow_le_pow_right (by omega) (by omega)
    exact ⟨hr.1, hr.2.1, bounded_of h1.gh (by have := h1.att; omega : _ ≤ 2 ^ 31) h1.mh h1.nG (by omega) (by omega),
      ih _ (n + 1) h1 (by omega) hr.2.2⟩

theorem small_init : Small Led.init 0 := ⟨fun _ => le_refl _, by simp [Led.init], fun _ => le_refl _, le_refl _⟩

instance (L : Led) (o : Op) : Decidable (Allowed L o) := by
  cases o <;> unfold Allowed <;> infer_instance

instance (L : Led) (o : Op) : Decidable (Clean L o) := by
  cases o
  case meshTexture m d =>
    refine decidable_of_iff ((match L.arr m .uv with | some (.own _) => false | _ => true) = true) ?_
    unfold Clean
    split
    · rename_i e h
      constructor
      · intro k; cases k
      · intro k; exact absurd h (k e)
    · rename_i h
      exact ⟨fun _ d hd => h d hd, fun _ => rfl⟩
  all_goals unfold Clean; infer_instance

instance decRules : ∀ (os : List Op) (L : Led), Decidable (Rules L os)
  | [], _ => .isTrue trivial
  | o :: os, L => by
    have := decRules os (L.next o)
    unfold Rules
    infer_instance

instance decObeys : ∀ (os : List Op) (L : Led), Decidable (Obeys L os)
  | [], _ => .isTrue trivial
  | o :: os, L => by
    have := decObeys os (L.next o)
    unfold Obeys
    infer_instance

/-- A mesh with copied vertices is shown at a frame of a graph and of its copy; both graphs are
destroyed again. -/
def story : List Op :=
  [.meshCreate, .meshSet 0 .vertices (.copy 7), .meshSet 0 .vertices (.copy 8), .meshTexture 0 3, .geomMesh 0,
   .meshDestroy 0, .sgCreate, .addFrame 0 5, .attach 0 5 0, .clInit 0, .glInit 0, .sgCopy 0, .sgDestroy 0,
   .sgDestroy 1, .cleanup]

theorem good_story : Good Led.init story :=
  good_short _ _ 0 small_init (by decide) (by decide +kernel)

example : (Led.init.after (story.take 13)).refsG 0 = 1 := by decide +kernel

/-- While the copy of the graph lives, so do the object and the mesh, with the vertices set last. -/
example : ∃ s G M, run init (story.take 13) = .ok s ∧ s.geoms 0 = some G ∧ s.meshes 0 = some M ∧
    given s (M.arr .vertices) = some (.own 8) := by
  have hg : Good Led.init (story.take 13) := good_short _ _ 0 small_init (by decide) (by decide +kernel)
  obtain ⟨s, e, h1, h2, -⟩ := C93_live_partial _ hg
  obtain ⟨G, hG⟩ := (h1 0).2 (by decide +kernel)
  obtain ⟨M, hM⟩ := (h2 0).2 (by decide +kernel)
  refine ⟨s, G, M, e, hG, hM, ?_⟩
  rw [C93_data_partial _ hg s e 0 M hM]
  rfl

/-- In the end nothing is left, and until then every block has an owner. -/
example : ∃ s, run init story = .ok s ∧ (∀ b, s.blocks b = none) ∧ (∀ m, s.meshes m = none) ∧
    ∀ g, s.geoms g = none :=
  C93_end_partial (story.take 14) good_story
    (fun g => by
      have : (Led.init.after story).gh g = 0 ∧ (Led.init.after story).att = 0 := by
        refine ⟨?_, by decide +kernel⟩
        simp only [story, Led.after, Led.next, Led.newG, Led.addFrame, Led.init, upd]
        split_ifs <;> rfl
      show (Led.init.after story).refsG g = 0
      unfold Led.refsG
      rw [this.1, this.2]
      simp)
    (fun m => by
      show (Led.init.after story).mh m = 0
      simp only [story, Led.after, Led.next, Led.newG, Led.addFrame, Led.init, upd]
      split_ifs <;> rfl)

example : ∃ s, run init (story.take 4) = .ok s ∧ (∃ d, s.blocks 1 = some d) ∧ Owns s 1 := by
  have hg : Good Led.init (story.take 4) := good_short _ _ 0 small_init (by decide) (by decide +kernel)
  refine ⟨_, rfl, ⟨8, rfl⟩, ?_⟩
  exact (C93_blocks_partial _ hg _ rfl 1).1 ⟨8, rfl⟩

/-! ### Where the code is wrong -/

/-- Setting a texture twice leaves the texture coordinates of the first call allocated for ever. -/
theorem C93_violates_texture : ∃ os s, Obeys Led.init os ∧
    os = [.meshCreate, .meshTexture 0 1, .meshTexture 0 2, .meshDestroy 0, .cleanup] ∧
    run init os = .ok s ∧ (∀ m, s.meshes m = none) ∧ s.blocks 1 = some 0 ∧ ¬ Owns s 1 := by
  refine ⟨_, _, by decide +kernel, rfl, rfl, fun m => ?_, rfl, fun h => ?_⟩
  · simp only [upd, meshCreate, init]
    split_ifs <;> rfl
  · cases h with
    | mesh m M f hm =>
      revert hm
      simp only [upd, meshCreate, init]
      split_ifs <;> simp
    | cl g G hg => cases hg
    | gl g G hg => cases hg
    | dead h => cases h

/-- A frame's geometry copied to the frame itself: the vector grows while it is traversed. -/
theorem C93_violates_self :
    Obeys Led.init [.sgCreate, .addFrame 0 0, .geomPlain, .attach 0 0 0, .copyFrameGeom 0 0 0] ∧
    run init [.sgCreate, .addFrame 0 0, .geomPlain, .attach 0 0 0, .copyFrameGeom 0 0 0] = .ub :=
  ⟨by decide +kernel, rfl⟩

/-- Destroying a copy of a graph with limits: records made by `new` are passed to `free`. -/
theorem C93_violates_limits : 
    Obeys Led.init [.sgCreate, .setLimit 0 0, .sgCopy 0, .sgDestroy 1] ∧
    run init [.sgCreate, .setLimit 0 0, .sgCopy 0, .sgDestroy 1] = .ub :=
  ⟨by decide +kernel, rfl⟩

theorem run_append (os os' : List Op) : ∀ s, run s (os ++ os') = (run s os).bind fun s => run s os' := by
  induction os with
  | nil => intro s; rfl
  | cons o os ih =>
    intro s
    show (step s o).bind _ = ((step s o).bind _).bind _
    cases step s o with
    | ok s1 => exact ih s1
    | ub => rfl
    | abort => rfl

theorem run_copies (n : Nat) : ∀ c : Nat, c + n < 2 ^ 32 → 0 < c → ∀ (s : St), s.geoms 0 = some ⟨c, none, none, none⟩ →
    ∃ s', run s (List.replicate n (.geomCopy 0)) = .ok s' ∧ s'.geoms 0 = some ⟨c + n, none, none, none⟩ := by
  induction n with
  | zero => intro c _ _ s h; exact ⟨s, rfl, h⟩
  | succ n ih =>
    intro c hc h0 s h
    obtain ⟨s', e, k⟩ := ih (c + 1) (by omega) (by omega)
      { s with geoms := upd s.geoms 0 (some ⟨c + 1, none, none, none⟩) } (by simp [upd])
    refine ⟨s', ?_, by rw [k]; congr 2; omega⟩
    rw [List.replicate_succ]
    show (geomCopy s 0).bind _ = _
    unfold geomCopy
    rw [h]
    dsimp only
    rw [if_neg (by omega), refInc_eq (by omega)]
    exact e

theorem run_wrap (n : Nat) (hn : n + 2 = 2 ^ 32) :
    run init (.geomPlain :: (List.replicate n (.geomCopy 0) ++ [.geomCopy 0, .geomDestroy 0])) = .abort := by
  show run (geomNew init none) _ = _
  rw [run_append]
  obtain ⟨s, e, h⟩ := run_copies n 1 (by omega) (by omega) (geomNew init none) rfl
  rw [e]
  show ((geomCopy s 0).bind fun s => (geomDestroy s 0).bind _) = _
  unfold geomCopy
  rw [h]
  dsimp only
  have hr : refInc (1 + n) = 0 := by unfold refInc; omega
  rw [if_neg (by omega), hr]
  dsimp only [Out.bind]
  unfold geomDestroy
  simp [upd]

theorem obeys_copies (os : List Op) : ∀ (n : Nat) (L : Led), 0 < L.gh 0 →
    (∀ L' : Led, 0 < L'.gh 0 → Obeys L' os) → Obeys L (List.replicate n (.geomCopy 0) ++ os) := by
  intro n
  induction n with
  | zero => intro L h h'; exact h' L h
  | succ n ih =>
    intro L h h'
    rw [List.replicate_succ]
    refine ⟨?_, ih _ ?_ h'⟩
    · show 0 < L.refsG 0
      unfold Led.refsG
      omega
    · show 0 < upd L.gh 0 (L.gh 0 + 1) 0
      simp [upd]

/-- With 2^32 references the count is zero again and the next destruction aborts. -/
theorem C93_violates_wrap : ∃ os, Obeys Led.init os ∧ run init os = .abort := by
  refine ⟨_, ?_, run_wrap (2 ^ 32 - 2) (by omega)⟩
  refine ⟨trivial, obeys_copies _ _ _ (by simp [Led.next, Led.newG, Led.init, upd]) fun L h => ⟨?_, ?_, trivial⟩⟩
  · show 0 < L.refsG 0
    unfold Led.refsG
    omega
  · show 0 < upd L.gh 0 (L.gh 0 + 1) 0
    simp [upd]

/-! ## C94 -/

theorem card_src {L : Led} {s : St} (r : Rel L s) (p : Nat) :
    dlM s p = ((range L.nM).filter fun m => 0 < L.refsM m ∧ L.src m = some p).card := by
  unfold dlM
  rw [Finset.card_filter, r.nM]
  refine Finset.sum_congr rfl fun m _ => ?_
  have hM : L.refsM m = rM s.nG L.refsG L.mh L.mesh m := by rw [r.nG, refsM_eq]
  cases hm : s.meshes m with
  | none =>
    rw [if_neg]
    · rfl
    · rintro ⟨h, -⟩
      rw [hM] at h
      obtain ⟨M, k, -⟩ := r.core.m1 m h
      rw [hm] at k
      cases k
  | some M =>
    have h := (r.core.mesh_lt hm).2
    rw [← hM] at h
    simp only [fD, r.src m M hm, h, true_and]

theorem card_last {L : Led} {s : St} (r : Rel L s) (p : Nat) :
    dlS s p = ((range L.nS).filter fun k => L.sg k = true ∧ L.last k = some p).card := by
  unfold dlS
  rw [Finset.card_filter, r.nS]
  refine Finset.sum_congr rfl fun k _ => ?_
  have hk := r.sg k
  cases hs : s.sgs k with
  | none =>
    rw [hs] at hk
    rw [← hk]
    rfl
  | some S =>
    rw [hs] at hk
    simp only [fS, r.last k S hs, ← hk, Option.isSome_some, true_and]

/-- How often a plugin is open: once for each mesh loaded from it that is still there, once for each
graph that it was loaded into last, and once for each time that another plugin was loaded into a graph
after it. -/
theorem C94_open_partial (os : List Op) (h : Good Led.init os) (s : St) (e : run init os = .ok s) (p : Nat) :
    s.dl p = ((range (Led.init.after os).nM).filter fun m =>
        0 < (Led.init.after os).refsM m ∧ (Led.init.after os).src m = some p).card +
      ((range (Led.init.after os).nS).filter fun k =>
        (Led.init.after os).sg k = true ∧ (Led.init.after os).last k = some p).card +
      (Led.init.after os).lost p := by
  obtain ⟨s', e', r⟩ := rel_run os rel_init bounded_init h
  rw [e] at e'
  cases e'
  rw [← card_src r, ← card_last r]
  exact (r.core.dl p).symm

/-- What a value is, wherever it is stored. -/
def Given.val : Given → Nat
  | .own d => d
  | .client d => d
  | .lib _ d => d

/-- All data of a mesh can be read, unless it is from a plugin that was loaded into a graph and the graph
is gone. -/
theorem C94_read_partial (os : List Op) (h : Good Led.init os) (s : St) (e : run init os = .ok s) (m : Nat)
    (M : Mesh) (hm : s.meshes m = some M) (f : Fld) (x : Given)
    (hx : (Led.init.after os).arr m f = some x)
    (hv : ∀ p d, x = .lib p d → (Led.init.after os).via p →
      ∃ k, (Led.init.after os).sg k = true ∧ (Led.init.after os).last k = some p) :
    readArr s (M.arr f) = some x.val := by
  obtain ⟨s', e', r⟩ := rel_run os rel_init bounded_init h
  rw [e] at e'
  cases e'
  have hg := C93_data_partial os h s e m M hm f
  rw [hx] at hg
  cases ha : M.arr f with
  | null => rw [ha] at hg; cases hg
  | client d => rw [ha] at hg; cases hg; rfl
  | owned b =>
    rw [ha] at hg
    simp only [given, Option.map_eq_some_iff] at hg
    obtain ⟨d, hd, rfl⟩ := hg
    exact hd
  | lib p d =>
    rw [ha] at hg
    cases hg
    have hd : 0 < s.dl p := by
      have a := r.core.dl p
      rcases r.core.lib m M f p d hm ha with k | k
      · have := sum_ge (r.core.mesh_lt hm).1 fun m => fD p (s.meshes m)
        have h1 : fD p (s.meshes m) = 1 := by rw [hm]; simp [fD, k]
        unfold dlM at a
        omega
      · obtain ⟨j, h1, h2⟩ := hv p d rfl k
        obtain ⟨S, hS⟩ := Option.isSome_iff_exists.1 ((r.sg j).trans h1)
        have := sum_ge (r.core.sg_lt hS) fun j => fS p (s.sgs j)
        have h3 : fS p (s.sgs j) = 1 := by rw [hS]; simp [fS, r.last j S hS, h2]
        unfold dlS at a
        omega
    show (if s.dl p = 0 then none else some d) = some d
    rw [if_neg (by omega)]

/-- A plugin from which only single meshes were loaded is closed with the last of them. -/
theorem C94_closed_partial (os : List Op) (h : Good Led.init os) (s : St) (e : run init os = .ok s) (p : Nat)
    (hv : ¬ (Led.init.after os).via p) : s.dl p = ((range (Led.init.after os).nM).filter fun m =>
        0 < (Led.init.after os).refsM m ∧ (Led.init.after os).src m = some p).card := by
  obtain ⟨s', e', r⟩ := rel_run os rel_init bounded_init h
  rw [e] at e'
  cases e'
  rw [← card_src r]
  exact r.core.dlV p hv

/-- A mesh from plugin 4 is destroyed while an object of it is still attached. -/
def plug : List Op :=
  [.dlMesh 4 9, .geomMesh 0, .meshDestroy 0, .sgCreate, .addFrame 0 1, .attach 0 1 0]

example : ∃ s M, run init plug = .ok s ∧ s.meshes 0 = some M ∧ readArr s (M.arr .normals) = some 9 ∧
    s.dl 4 = 1 := by
  have hg : Good Led.init plug := good_short _ _ 0 small_init (by decide) (by decide +kernel)
  refine ⟨_, _, rfl, rfl, ?_, rfl⟩
  refine C94_read_partial plug hg _ rfl 0 _ rfl .normals (.lib 4 9) rfl ?_
  intro p d _ hv
  exact hv.elim

example : ∃ s, run init (plug ++ [.sgDestroy 0]) = .ok s ∧ s.dl 4 = 0 := by
  have hg : Good Led.init (plug ++ [.sgDestroy 0]) :=
    good_short _ _ 0 small_init (by decide) (by decide +kernel)
  refine ⟨_, rfl, ?_⟩
  rw [C94_closed_partial _ hg _ rfl 4 (fun h => h)]
  decide +kernel

/-- A graph from plugin 4: the data can be read as long as the graph is there. -/
example : ∃ s M, run init [.sgCreate, .dlSg 4 9 0 1] = .ok s ∧ s.meshes 0 = some M ∧
    readArr s (M.arr .normals) = some 9 ∧ s.dl 4 = 1 := by
  have hg : Good Led.init [.sgCreate, .dlSg 4 9 0 1] :=
    good_short _ _ 0 small_init (by decide) (by decide +kernel)
  refine ⟨_, _, rfl, rfl, ?_, by rw [C94_open_partial _ hg _ rfl 4]; decide +kernel⟩
  refine C94_read_partial _ hg _ rfl 0 _ rfl .normals (.lib 4 9) rfl ?_
  intro p d hp _
  cases hp
  exact ⟨0, rfl, rfl⟩

/-- A copy of a graph does not keep the plugin open: when the original is destroyed, the meshes shown by
the copy point to memory that is not mapped any more. -/
theorem C94_violates_copy : ∃ os s M, os = [.sgCreate, .dlSg 4 9 0 1, .sgCopy 0, .sgDestroy 0] ∧
    Good Led.init os ∧ run init os = .ok s ∧ s.frames.any (isAt 1 1) = true ∧ s.meshes 0 = some M ∧
    (Led.init.after os).arr 0 .vertices = some (.lib 4 9) ∧ readArr s (M.arr .vertices) = none :=
  ⟨_, _, _, rfl, good_short _ _ 0 small_init (by decide) (by decide +kernel), rfl, rfl, rfl, rfl, rfl⟩

/-- Of two plugins loaded into the same graph, the first is never closed. -/
theorem C94_violates_second : ∃ os s, os = [.sgCreate, .dlSg 4 9 0 1, .dlSg 5 9 0 2, .sgDestroy 0] ∧
    Good Led.init os ∧ run init os = .ok s ∧ (∀ m, (Led.init.after os).refsM m = 0) ∧
    (∀ k, s.sgs k = none) ∧ s.dl 4 = 1 := by
  have hg : Good Led.init [.sgCreate, .dlSg 4 9 0 1, .dlSg 5 9 0 2, .sgDestroy 0] :=
    good_short _ _ 0 small_init (by decide) (by decide +kernel)
  obtain ⟨s, e, h1, h2, h3, -⟩ := C93_live_partial _ hg
  have hs : ∀ k, s.sgs k = none := fun k => by
    have : ¬ ∃ S, s.sgs k = some S := by
      rw [h3 k]
      simp only [Led.after, Led.next, Led.addFrame, Led.init, upd]
      split_ifs <;> simp
    exact Option.eq_none_iff_forall_ne_some.2 fun S hS => this ⟨S, hS⟩
  refine ⟨_, s, rfl, hg, e, fun m => ?_, hs, ?_⟩
  · have hz : ∀ g, (Led.init.after [.sgCreate, .dlSg 4 9 0 1, .dlSg 5 9 0 2, .sgDestroy 0]).refsG g = 0 := by
      intro g
      have : (Led.init.after [.sgCreate, .dlSg 4 9 0 1, .dlSg 5 9 0 2, .sgDestroy 0]).att = 0 := by decide +kernel
      unfold Led.refsG
      rw [this]
      rfl
    unfold Led.refsM
    simp only [hz, Nat.lt_irrefl, false_and, Finset.filter_false, Finset.card_empty]
    rfl
  · rw [C94_open_partial _ hg s e 4]
    decide +kernel

end Verif.Life
