import Verif.Prop.FclCheck
import Verif.Prop.SgAllow

/-!
# C92: allowing the collisions of a configuration
-/

namespace Verif.Fcl

open Verif.Tf Verif.Sg

/-! ## Lemmas -/

theorem colRun_append : ∀ (os os' : List ColOp) (c : ColGraph),
    colRun c (os ++ os') = (colRun c os).bind fun c' => colRun c' os' := by
  intro os
  induction os with
  | nil => intro os' c; rfl
  | cons o os ih =>
    intro os' c
    simp only [List.cons_append, colRun]
    cases colStep c o with
    | none => rfl
    | some c1 => exact ih os' c1

theorem specAllowed_append : ∀ (os os' : List ColOp) (c c' : ColGraph) (A : Sym2 String → Bool),
    colRun c os = some c' → specAllowed c A (os ++ os') = specAllowed c' (specAllowed c A os) os' := by
  intro os
  induction os with
  | nil => intro os' c c' A h; cases h; rfl
  | cons o os ih =>
    intro os' c c' A h
    simp only [colRun] at h
    simp only [List.cons_append, specAllowed]
    cases hs : colStep c o with
    | none => rw [hs] at h; cases h
    | some c1 => rw [hs] at h; exact ih os' c1 c' _ h

theorem frameOps_append : ∀ (os os' : List ColOp) (k : Nat),
    ∃ k', frameOps k (os ++ os') = frameOps k os ++ frameOps k' os' := by
  intro os
  induction os with
  | nil => intro os' k; exact ⟨k, rfl⟩
  | cons o os ih =>
    intro os' k
    cases o with
    | add n p kd q => obtain ⟨k', h⟩ := ih os' (k + 1); exact ⟨k', by simp [frameOps, h]⟩
    | _ => obtain ⟨k', h⟩ := ih os' k; exact ⟨k', by simp [frameOps, h]⟩

theorem added_append : ∀ os os' : List ColOp, added (os ++ os') = added os ++ added os' := by
  intro os
  induction os with
  | nil => intro os'; rfl
  | cons o os ih =>
    intro os'
    cases o <;> simp [added, ih]

/-- The calls of the loops of `aa_rx_sg_allow_config`. -/
def allows (s : ClSet) (l : List (Nat × Nat)) : List ColOp :=
  (l.filter fun p => clGet s p.1 p.2 == some true).map fun p => .allow p.1 p.2 true

theorem frameOps_allows (s : ClSet) (l : List (Nat × Nat)) (k : Nat) : frameOps k (allows s l) = [] := by
  unfold allows
  induction l.filter fun p => clGet s p.1 p.2 == some true with
  | nil => rfl
  | cons p l ih => simpa [frameOps] using ih

theorem added_allows (s : ClSet) (l : List (Nat × Nat)) : added (allows s l) = [] := by
  unfold allows
  induction l.filter fun p => clGet s p.1 p.2 == some true with
  | nil => rfl
  | cons p l ih => simpa [added] using ih

theorem clSet_len {s s' : ClSet} {i j : Int} {b : Bool} (h : clSet s i j b = some s') :
    s'.n = s.n ∧ s'.v.length = s.v.length := by
  unfold clSet at h
  rw [Option.map_eq_some_iff] at h
  obtain ⟨r, -, rfl⟩ := h
  exact ⟨rfl, by simp⟩

theorem clSetCopy_len : ∀ (l : List (Int × Int)) {s s' : ClSet}, clSetCopy l s = some s' →
    s'.n = s.n ∧ s'.v.length = s.v.length := by
  intro l
  induction l with
  | nil => intro s s' h; cases h; exact ⟨rfl, rfl⟩
  | cons p l ih =>
    intro s s' h
    rw [clSetCopy, Option.bind_eq_some_iff] at h
    obtain ⟨s1, h1, h2⟩ := h
    rw [(ih h2).1, (ih h2).2]
    exact clSet_len h1

theorem clContext_len {c : ColGraph} {s : ClSet} (h : clContext c = some s) :
    s.n = frameCount c.g ∧ s.v.length = frameCount c.g * frameCount c.g := by
  unfold clContext at h
  split at h
  · split_ifs at h
    have := clSetCopy_len _ h
    rw [this.1, this.2]
    exact ⟨rfl, by simp [clCreate]⟩
  · cases h

/-- The loops are calls that allow pairs, and change nothing else. -/
theorem allowPairs_spec {g : Graph Nat} (hclean : g.dirty = false) (nm : Nat → String)
    (hnm : ∀ i, i < frameCount g → frameName g i = some (nm i) ∧ nm i ∈ names g.map)
    {s : ClSet} {S : Sym2 Nat → Prop} (hs : Holds s (frameCount g) S) : ∀ (l : List (Nat × Nat)) (c : ColGraph)
    (A : Sym2 String → Bool),
    (∀ p ∈ l, p.1 < frameCount g ∧ p.2 < frameCount g) → c.g = g →
    ∃ c', allowPairs s l c = some c' ∧ colRun c (allows s l) = some c' ∧ c'.g = g ∧
      (c' = c ∧ allows s l = [] ∨ c'.dirtyCol = some true) ∧
      ∀ q, specAllowed c A (allows s l) q = true ↔
        A q = true ∨ ∃ p ∈ l, S s(p.1, p.2) ∧ q = s(nm p.1, nm p.2) := by
  intro l
  induction l with
  | nil =>
    intro c A _ hg
    exact ⟨c, rfl, rfl, hg, Or.inl ⟨rfl, rfl⟩, fun q => by simp [allows, specAllowed]⟩
  | cons p l ih =>
    intro c A hl hg
    obtain ⟨hp1, hp2⟩ := hl p (by simp)
    have hl' : ∀ p ∈ l, p.1 < frameCount g ∧ p.2 < frameCount g := fun p hp => hl p (by simp [hp])
    obtain ⟨b, e1, e2⟩ := hs.2.2 p.1 p.2 hp1 hp2
    cases b with
    | false =>
      have ha : allows s (p :: l) = allows s l := by
        unfold allows
        rw [List.filter_cons, e1]
        rfl
      obtain ⟨c', h1, h2, h3, h4, h5⟩ := ih c A hl' hg
      refine ⟨c', by rw [allowPairs, e1]; exact h1, by rw [ha]; exact h2, h3, by rw [ha]; exact h4, fun q => ?_⟩
      rw [ha, h5]
      have : ¬ S s(p.1, p.2) := fun h => absurd (e2.2 h) (by simp)
      simp [this]
    | true =>
      have ha : allows s (p :: l) = .allow p.1 p.2 true :: allows s l := by
        unfold allows
        rw [List.filter_cons, e1]
        rfl
      obtain ⟨n1, m1⟩ := hnm p.1 hp1
      obtain ⟨n2, m2⟩ := hnm p.2 hp2
      obtain ⟨c1, k1⟩ : ∃ c1, allowName c (nm p.1) (nm p.2) true = some c1 := by
        have ptr : ∀ n, n ∈ names g.map → ∃ o, namePtr c n = some o := by
          intro n hn
          rw [← find_isSome, Option.isSome_iff_exists] at hn
          obtain ⟨f, hf⟩ := hn
          exact ⟨f.body, by rw [namePtr, hg, hf]; rfl⟩
        obtain ⟨o1, h1⟩ := ptr _ m1
        obtain ⟨o2, h2⟩ := ptr _ m2
        unfold allowName
        dsimp only
        by_cases hlt : nm p.1 < nm p.2
        · rw [if_pos hlt]; simp only [h1, h2]; exact ⟨_, rfl⟩
        · rw [if_neg hlt]; simp only [h1, h2]; exact ⟨_, rfl⟩
      have k2 : allowId c p.1 p.2 true = some c1 := by
        unfold allowId
        rw [hg, if_neg (by rw [hclean]; simp), n1, n2]
        exact k1
      have hd1 : c1.dirtyCol = some true := by
        unfold allowName at k1
        dsimp only at k1
        split at k1
        · cases k1; rfl
        · cases k1
      obtain ⟨c', h1, h2, h3, h4, h5⟩ := ih c1 (Function.update A s(nm p.1, nm p.2) true) hl'
        ((allowName_g k1).1.trans hg)
      refine ⟨c', ?_, ?_, h3, Or.inr ?_, fun q => ?_⟩
      · rw [allowPairs, e1]
        dsimp only
        rw [k2]
        exact h1
      · rw [ha, colRun, colStep, k2]
        exact h2
      · rcases h4 with ⟨rfl, -⟩ | h4
        · exact hd1
        · exact h4
      · rw [ha, specAllowed, colStep, k2]
        simp only [specAllow, hg, n1, n2]
        rw [h5]
        have hS := e2.1 rfl
        constructor
        · rintro (h | ⟨p', hp', h⟩)
          · by_cases hq : q = s(nm p.1, nm p.2)
            · exact Or.inr ⟨p, by simp, hS, hq⟩
            · rw [Function.update_of_ne hq] at h
              exact Or.inl h
          · exact Or.inr ⟨p', by simp [hp'], h⟩
        · rintro (h | ⟨p', hp', h, hq⟩)
          · left
            by_cases hq : q = s(nm p.1, nm p.2)
            · rw [hq, Function.update_self]
            · rw [Function.update_of_ne hq]; exact h
          · rcases List.mem_cons.1 hp' with rfl | hp'
            · left; rw [hq, Function.update_self]
            · exact Or.inr ⟨p', hp', h, hq⟩

/-- **C92** for the histories of C57 (no frame removed or replaced, collision data marked dirty) and the
geometry of C88: after `aa_rx_sg_allow_config` and `aa_rx_sg_cl_init`, new contexts allow what they
allowed before and the pairs that overlap in the configuration, and nothing else; a check in the
configuration finds nothing. -/
theorem C92_allow_config_partial (collide : FclGeom × Tfm → FclGeom × Tfm → Bool)
    (hc : NarrowPhase collide) (scene : List (List Geom)) (tf : Nat → Qutr)
    (hsup : ∀ gs ∈ scene, ∀ g ∈ gs, g.collision = true → Supported g) (visits : List (Nat × Nat))
    (hb : BroadPhase (objects scene).length
      (hitAt collide ((objects scene).map fun o => (o.fcl, updateTf tf o))) visits)
    (os : List ColOp) (c : ColGraph) (hr : colRun colCreate os = some c)
    (hd : NoDelete os) (hf : Forest (contents (frameOps 0 os)))
    (he : contents (frameOps 0 os) "" = none) (hdirty : c.dirtyCol = some true)
    (g' : Graph Nat) (hi : index c.g = some (Status.ok, g')) (hlen : frameCount g' = scene.length) :
    ∃ c1 c2 c3 s, colRun c [.init, .clInit] = some c1 ∧
      allowConfig c1 (fun i => ((objects scene)[i]?.map (·.frame)).getD 0)
        (hitAt collide ((objects scene).map fun o => (o.fcl, updateTf tf o))) visits = some c2 ∧
      colRun c2 [.clInit] = some c3 ∧ c3.g = g' ∧ clContext c3 = some s ∧
      (∀ a b fa fb, contents (frameOps 0 os) a = some fa → contents (frameOps 0 os) b = some fb →
        ∃ x, clGet s (frameId g' a) (frameId g' b) = some x ∧
          (x = true ↔ specAllowed colCreate (fun _ => false) os s(a, b) = true ∨
            (a ≠ b ∧ Overlap scene tf (frameId g' a).toNat (frameId g' b).toNat))) ∧
      ∃ d, clCheck collide scene s tf visits none = some d ∧ d.result = false := by
  have hrun := colRun_frames os colCreate c hr
  rw [show colCreate.next = 0 from rfl] at hrun
  obtain ⟨c1, s0, e1, e2, e3, e4⟩ := C57_partial os c hr hd hf he hdirty g' hi
  have hne : ∀ f ∈ c.g.map, f.name ≠ "" := by
    intro f hm h0
    have := (mem_map_iff hrun f).1 hm
    rw [h0, he] at this
    cases this
  obtain ⟨st, hst, hm, hclean, -, -⟩ := reach_indexed (reach_run reach_create hrun) hi
    (forest_acyclic hrun hf) hne
  -- frames by number
  have hnum : ∀ i, i < frameCount g' → ∃ n f, contents (frameOps 0 os) n = some f ∧
      frameId g' n = (i : Int) ∧ frameName g' i = some n ∧ n ∈ names g'.map := by
    intro i hi
    rw [hst.count'] at hi
    have h1 := List.getElem?_eq_getElem hi
    obtain ⟨k1, k2⟩ := hst.frameId_entry h1
    have k3 := k2
    rw [hm] at k3
    exact ⟨_, _, (mem_map_iff hrun _).1 k3, k1, hst.frameName_entry h1, List.mem_map_of_mem k2⟩
  choose! nm fr hnm1 hnm2 hnm3 hnm4 using hnum
  have hlt : ∀ n f, contents (frameOps 0 os) n = some f → ∃ i : Nat, frameId g' n = i ∧
      i < frameCount g' ∧ nm i = n := by
    intro n f hn
    obtain ⟨rfl, k⟩ := contents_name hrun hn
    rw [← hm] at k
    obtain ⟨i, e, h1, h2, h3⟩ := hst.exists_entry k
    have hi : i < frameCount g' := by
      rw [hst.count']; exact (List.getElem?_eq_some_iff.1 h1).1
    refine ⟨i, h3, hi, ?_⟩
    have := hst.frameName_entry h1
    rw [hnm3 i hi] at this
    rw [← h2]
    exact Option.some.inj this
  obtain ⟨A, hA⟩ : ∃ A, A = specAllowed colCreate (fun _ => false) os := ⟨_, rfl⟩
  rw [← hA] at e4 ⊢
  -- contexts as sets of pairs of numbers
  have hctx : ∀ (s : ClSet) (B : Sym2 String → Bool), s.n = frameCount g' →
      s.v.length = frameCount g' * frameCount g' →
      (∀ a b fa fb, contents (frameOps 0 os) a = some fa → contents (frameOps 0 os) b = some fb →
        clGet s (frameId g' a) (frameId g' b) = some (B s(a, b))) →
      Holds s (frameCount g') (fun p => B (p.map nm) = true) := by
    intro s B h1 h2 h3
    refine ⟨h1, h2, fun i j hi hj => ⟨B s(nm i, nm j), ?_, by simp⟩⟩
    rw [← hnm2 i hi, ← hnm2 j hj]
    exact h3 _ _ _ _ (hnm1 i hi) (hnm1 j hj)
  have hl0 := clContext_len e3
  rw [e2] at hl0
  have hS0 := hctx s0 A hl0.1 hl0.2 e4
  rw [hlen] at hS0
  obtain ⟨-, hchk⟩ := clCheck_spec hc (tf := tf) hS0 hsup hb
  obtain ⟨d, s1, f1, f2, -, f4⟩ := hchk (clCreate scene.length) _ (holds_create _)
  obtain ⟨s2, f5, f6⟩ := holds_merge_empty f4
  rw [← hlen] at f6
  obtain ⟨T, hT⟩ : ∃ T : Sym2 Nat → Prop, T = fun p => ∃ a b, p = s(a, b) ∧ a ≠ b ∧ Overlap scene tf a b :=
    ⟨_, rfl⟩
  have f7 : Holds s2 (frameCount g') (fun p => ¬ A (p.map nm) = true ∧ T p) := by
    refine holds_congr f6 fun i j _ _ => ?_
    rw [hT]
    simp
  have hpairs : ∀ p ∈ pairsBelow (frameCount g'), p.1 < frameCount g' ∧ p.2 < frameCount g' ∧ p.2 < p.1 := by
    intro p hp
    simp only [pairsBelow, List.mem_flatMap, List.mem_map, List.mem_range] at hp
    obtain ⟨i, hi, j, hj, rfl⟩ := hp
    exact ⟨hi, by dsimp only; omega, hj⟩
  have hpairs' : ∀ i j, i < frameCount g' → j < i → (i, j) ∈ pairsBelow (frameCount g') := by
    intro i j hi hj
    simp only [pairsBelow, List.mem_flatMap, List.mem_map, List.mem_range]
    exact ⟨i, hi, j, hj, rfl⟩
  obtain ⟨c2, g1, g2, g3, g4, g5⟩ := allowPairs_spec hclean nm (fun i hi => ⟨hnm3 i hi, hnm4 i hi⟩) f7
    (pairsBelow (frameCount g')) c1 A (fun p hp => ⟨(hpairs p hp).1, (hpairs p hp).2.1⟩) e2
  have hac : allowConfig c1 (fun i => ((objects scene)[i]?.map (·.frame)).getD 0)
      (hitAt collide ((objects scene).map fun o => (o.fcl, updateTf tf o))) visits = some c2 := by
    unfold allowConfig getCollision
    rw [e3, e2, hlen]
    dsimp only
    unfold clCheck at f1
    dsimp only at f1
    rw [f1]
    obtain ⟨dr, ds⟩ := d
    dsimp only at f2 ⊢
    subst f2
    dsimp only
    rw [f5, Option.bind_some, ← hlen]
    exact g1
  -- the second initialisation
  have hdone : ∃ c3 s, colRun c2 [.clInit] = some c3 ∧ c3.g = g' ∧ clContext c3 = some s ∧
      ∀ a b fa fb, contents (frameOps 0 os) a = some fa → contents (frameOps 0 os) b = some fb →
        clGet s (frameId g' a) (frameId g' b) =
          some (specAllowed c1 A (allows s2 (pairsBelow (frameCount g'))) s(a, b)) := by
    rcases g4 with ⟨rfl, hnil⟩ | hdirt
    · refine ⟨c2, s0, ?_, g3, e3, ?_⟩
      · have : c2.dirtyCol = some false := by
          unfold clContext at e3
          split at e3
          · assumption
          · cases e3
        simp only [colRun, colStep, clInit, this, Option.bind_some]
      · rw [hnil]
        exact e4
    · have hr2 : colRun colCreate (os ++ ([.init, .clInit] ++ allows s2 (pairsBelow (frameCount g')))) =
          some c2 := by
        rw [colRun_append, hr, Option.bind_some, colRun_append, e1, Option.bind_some, g2]
      have hfo : contents (frameOps 0 (os ++ ([.init, .clInit] ++
          allows s2 (pairsBelow (frameCount g'))))) = contents (frameOps 0 os) := by
        obtain ⟨k', hk⟩ := frameOps_append os ([.init, .clInit] ++ allows s2 (pairsBelow (frameCount g'))) 0
        rw [hk]
        simp only [List.cons_append, List.nil_append, frameOps, frameOps_allows, contents,
          List.foldl_append, List.foldl_cons, List.foldl_nil]
      have hspec : specAllowed colCreate (fun _ => false)
          (os ++ ([.init, .clInit] ++ allows s2 (pairsBelow (frameCount g')))) =
          specAllowed c1 A (allows s2 (pairsBelow (frameCount g'))) := by
        rw [specAllowed_append _ _ _ _ _ hr, ← hA, specAllowed_append _ _ _ _ _ e1]
        congr 1
        simp only [specAllowed]
        simp only [colRun] at e1
        cases h1 : colStep c .init with
        | none => rfl
        | some c' =>
          dsimp only
          cases h2 : colStep c' .clInit with
          | none => rfl
          | some c'' => rfl
      obtain ⟨c3, s, k1, k2, k3, k4⟩ := C57_partial _ c2 hr2
        ⟨by rw [added_append, added_append, added_allows]; simpa [added] using hd.1, by
          intro n hn
          rcases List.mem_append.1 hn with hn | hn
          · exact hd.2 n hn
          · rcases List.mem_append.1 hn with hn | hn
            · simp at hn
            · simp [allows] at hn⟩
        (by rw [hfo]; exact hf) (by rw [hfo]; exact he) hdirt g'
        (by rw [g3, index, hclean]; rfl)
      rw [hfo, hspec] at k4
      refine ⟨c3, s, ?_, k2, k3, k4⟩
      have hinit : colStep c2 .init = some c2 := by
        simp only [colStep, colInit, index, g3, hclean]
        obtain ⟨⟩ := c2
        dsimp only at g3
        subst g3
        rfl
      rw [colRun, hinit, Option.bind_some] at k1
      exact k1
  obtain ⟨c3, s, k1, k2, k3, k4⟩ := hdone
  have hkey : ∀ i j, i < frameCount g' → j < frameCount g' →
      (specAllowed c1 A (allows s2 (pairsBelow (frameCount g'))) s(nm i, nm j) = true ↔
        A s(nm i, nm j) = true ∨ T s(i, j)) := by
    intro i j hi hj
    rw [g5]
    constructor
    · rintro (h | ⟨p, hp, ⟨-, h2⟩, h3⟩)
      · exact Or.inl h
      · right
        obtain ⟨q1, q2, -⟩ := hpairs p hp
        have inj : ∀ x y, x < frameCount g' → y < frameCount g' → nm x = nm y → x = y := by
          intro x y hx hy h
          have a1 := hnm2 x hx
          rw [h, hnm2 y hy] at a1
          omega
        rcases Sym2.eq_iff.1 h3 with ⟨r1, r2⟩ | ⟨r1, r2⟩
        · rw [inj i _ hi q1 r1, inj j _ hj q2 r2]; exact h2
        · rw [inj i _ hi q2 r1, inj j _ hj q1 r2, Sym2.eq_swap]; exact h2
    · intro h
      by_cases hAij : A s(nm i, nm j) = true
      · exact Or.inl hAij
      · right
        have hT' := h.resolve_left hAij
        have hij : i ≠ j := by
          rw [hT] at hT'
          obtain ⟨a, b, h1, h2, -⟩ := hT'
          rintro rfl
          rcases Sym2.eq_iff.1 h1 with ⟨rfl, h⟩ | ⟨rfl, h⟩
          · exact h2 h
          · exact h2 h.symm
        rcases Nat.lt_or_gt_of_ne hij with h | h
        · refine ⟨(j, i), hpairs' j i hj h, ⟨?_, ?_⟩, Sym2.eq_swap⟩
          · rw [Sym2.map_mk, Sym2.eq_swap]; exact hAij
          · dsimp only; rw [Sym2.eq_swap]; exact hT'
        · exact ⟨(i, j), hpairs' i j hi h, ⟨hAij, hT'⟩, rfl⟩
  refine ⟨c1, c2, c3, s, e1, hac, k1, k2, k3, ?_, ?_⟩
  · intro a b fa fb ha hb'
    refine ⟨_, k4 a b fa fb ha hb', ?_⟩
    obtain ⟨i, i1, i2, rfl⟩ := hlt a fa ha
    obtain ⟨j, j1, j2, rfl⟩ := hlt b fb hb'
    rw [hkey i j i2 j2, i1, j1, Int.toNat_natCast, Int.toNat_natCast, hT]
    refine or_congr Iff.rfl ⟨?_, fun h => ⟨i, j, rfl, fun hij => h.1 (by rw [hij]), h.2⟩⟩
    rintro ⟨x, y, h1, h2, h3⟩
    rcases Sym2.eq_iff.1 h1 with ⟨rfl, rfl⟩ | ⟨rfl, rfl⟩
    · exact ⟨fun h => h2 (by have := i1; rw [h, j1] at this; omega), h3⟩
    · refine ⟨fun h => h2 (by have := i1; rw [h, j1] at this; omega), ?_⟩
      obtain ⟨ga, gb, gas, gbs, p1, p2, p3, p4, p5, p6, p, p7, p8⟩ := h3
      exact ⟨gb, ga, gbs, gas, p2, p1, p4, p3, p6, p5, p, p8, p7⟩
  · have hl := clContext_len k3
    rw [k2] at hl
    have hS := hctx s _ hl.1 hl.2 k4
    rw [hlen] at hS
    obtain ⟨⟨d, q1, -, q3⟩, -⟩ := clCheck_spec hc (tf := tf) hS hsup hb
    refine ⟨d, q1, ?_⟩
    cases hdr : d.result with
    | false => rfl
    | true =>
      obtain ⟨p, h1, a, b, rfl, h2, h3⟩ := q3.1 hdr
      obtain ⟨ga, gb, gas, gbs, p1, p2, -⟩ := id h3
      have ha : a < frameCount g' := by rw [hlen]; exact (List.getElem?_eq_some_iff.1 p1).1
      have hb'' : b < frameCount g' := by rw [hlen]; exact (List.getElem?_eq_some_iff.1 p2).1
      refine absurd ((hkey a b ha hb'').2 (Or.inr ?_)) (by rw [hlen]; exact h1)
      rw [hT]
      exact ⟨a, b, rfl, h2, h3⟩

/-! ## A case -/

def ballOps : List ColOp :=
  [.add "b" "" Kind.fixed "", .add "a" "b" Kind.fixed "", .dirtyGeom]

/-- Two balls that overlap, one of them in a frame below the other's: the hypotheses are met, and the
pair is allowed afterwards, which it was not before. -/
example : ∃ c g' c1 s1 c2 c3 s, colRun colCreate ballOps = some c ∧ index c.g = some (Status.ok, g') ∧
    colRun c [.init, .clInit] = some c1 ∧ clContext c1 = some s1 ∧
    clGet s1 (frameId g' "a") (frameId g' "b") = some false ∧
    allowConfig c1 (fun i => ((objects [[⟨true, 1, .sphere 1⟩], [⟨true, 1, .sphere 1⟩]])[i]?.map
        (·.frame)).getD 0)
      (hitAt ideal ((objects [[⟨true, 1, .sphere 1⟩], [⟨true, 1, .sphere 1⟩]]).map fun o =>
        (o.fcl, updateTf (fun _ => at' 0 0 0) o))) [(0, 1)] = some c2 ∧
    colRun c2 [.clInit] = some c3 ∧ clContext c3 = some s ∧
    clGet s (frameId g' "a") (frameId g' "b") = some true := by
  have hfor : Forest (contents (frameOps 0 ballOps)) := by
    have key : ∀ p n, IsParent (contents (frameOps 0 ballOps)) p n → n = "a" ∧ p = "b" := by
      rintro p n ⟨h1, f, h2, rfl⟩
      simp only [contents, ballOps, frameOps, List.foldl_cons, List.foldl_nil] at h2
      split_ifs at h2 with a1 a2
      all_goals
        simp only [Option.some.injEq] at h2
        try subst h2
        simp_all
    have not_trans : ∀ x y, Relation.TransGen (IsParent (contents (frameOps 0 ballOps))) x y →
        x = "b" ∧ y = "a" := by
      intro x y hxy
      induction hxy with
      | single h => exact ⟨(key _ _ h).2, (key _ _ h).1⟩
      | tail _ h ih => exact ⟨ih.1, (key _ _ h).1⟩
    intro n h
    obtain ⟨rfl, h2⟩ := not_trans n n h
    simp at h2
  have hb0 : contents (frameOps 0 ballOps) "" = none := by decide +kernel
  obtain ⟨c, hr⟩ : ∃ c, colRun colCreate ballOps = some c := Option.isSome_iff_exists.1 (by decide +kernel)
  have hd : c.dirtyCol = some true := by
    have : (colRun colCreate ballOps).map (·.dirtyCol) = some (some true) := by decide +kernel
    rw [hr] at this
    simpa using this
  obtain ⟨g', hi, hn⟩ : ∃ g', index c.g = some (Status.ok, g') ∧ frameCount g' = 2 := by
    have : ((colRun colCreate ballOps).bind fun c => (index c.g).map fun r =>
        (r.1, frameCount r.2)) = some (Status.ok, 2) := by decide +kernel
    rw [hr, Option.bind_some, Option.map_eq_some_iff] at this
    obtain ⟨⟨r1, r2⟩, h1, h2⟩ := this
    simp only [Prod.mk.injEq] at h2
    rw [h2.1] at h1
    exact ⟨r2, h1, h2.2⟩
  have hnd : NoDelete ballOps := ⟨by decide, by intro n h; simp [ballOps] at h⟩
  have hAll : specAllowed colCreate (fun _ => false) ballOps s("a", "b") = false := by decide +kernel
  have ca : ∃ f, contents (frameOps 0 ballOps) "a" = some f :=
    Option.isSome_iff_exists.1 (by decide +kernel)
  have cb : ∃ f, contents (frameOps 0 ballOps) "b" = some f :=
    Option.isSome_iff_exists.1 (by decide +kernel)
  obtain ⟨fa, ca⟩ := ca
  obtain ⟨fb, cb⟩ := cb
  have hids : frameId g' "a" = 1 ∧ frameId g' "b" = 0 := by
    have : ((colRun colCreate ballOps).bind fun c => (index c.g).map fun r =>
        (frameId r.2 "a", frameId r.2 "b")) = some (1, 0) := by decide +kernel
    rw [hr, Option.bind_some, hi, Option.map_some] at this
    simpa using this
  obtain ⟨c1', s1, k1, -, k3, k4⟩ := C57_partial ballOps c hr hnd hfor hb0 hd g' hi
  have k5 := k4 "a" "b" fa fb ca cb
  rw [hAll] at k5
  obtain ⟨c1, c2, c3, s, h1, h2, h3, h4, h5, h6, -⟩ := C92_allow_config_partial ideal ideal_ok
    [[⟨true, 1, .sphere 1⟩], [⟨true, 1, .sphere 1⟩]] (fun _ => at' 0 0 0)
    (by intro gs h1 g h2 _; simp at h1; subst h1; simp at h2; subst h2; simp [Supported])
    [(0, 1)]
    (by
      have : (objects [[⟨true, 1, .sphere 1⟩], [⟨true, 1, .sphere 1⟩]]).length = 2 := rfl
      rw [this]
      refine ⟨by simp, fun i j hi hj hne _ => ?_⟩
      have : i = 0 ∧ j = 1 ∨ i = 1 ∧ j = 0 := by omega
      rcases this with ⟨rfl, rfl⟩ | ⟨rfl, rfl⟩ <;> simp)
    ballOps c hr hnd hfor hb0 hd g' hi hn
  rw [h1] at k1
  cases k1
  obtain ⟨x, h7, h8⟩ := h6 "a" "b" fa fb ca cb
  have hx : x = true := by
    refine h8.2 (Or.inr ⟨by decide, ?_⟩)
    rw [hids.1, hids.2]
    have h : (⟨true, 1, .sphere 1⟩ : Geom).occupies (at' 0 0 0) ⟨0, 0, 0⟩ :=
      ⟨⟨0, 0, 0⟩, by norm_num [Shape.solid, GlMesh.Ball, vdot], by simp [tf_at, vscal]⟩
    exact ⟨_, _, _, _, rfl, rfl, by simp, by simp, rfl, rfl, _, h, h⟩
  subst hx
  exact ⟨c, g', c1', s1, c2, c3, s, hr, hi, h1, k3, k5, h2, h3, h5, h7⟩

/-- **C92** fails when a frame was added after the last initialisation of the collision data (as C57,
which see): `a`, `b` is allowed and nothing collides, but after allowing the configuration and
initialising again, the context allows the pair `A`, `a` instead. -/
theorem C92_violates_reindex :
    ((colRun colCreate [ColOp.add "a" "" Kind.fixed "", ColOp.add "b" "" Kind.fixed "", ColOp.init,
      ColOp.allowName "a" "b" true, ColOp.clInit, ColOp.add "A" "" Kind.fixed "", ColOp.init,
      ColOp.clInit]).bind fun c =>
        (allowConfig c (fun i => ((objects [[], [], []])[i]?.map (·.frame)).getD 0) (fun _ _ => false)
          []).bind fun c => (colRun c [ColOp.clInit]).bind fun c => (clContext c).map fun s =>
            (clGet s (frameId c.g "a") (frameId c.g "b"),
             clGet s (frameId c.g "A") (frameId c.g "a"))) = some (some false, some true) := by
  decide +kernel

end Verif.Fcl
