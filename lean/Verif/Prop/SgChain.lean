import Verif.Proof.SgSub
import Verif.Prop.SgFk

/-!
# C54, C55: kinematic chains and their configuration vectors
-/

namespace Verif.Sg

variable {P : Type}

theorem indexed_of' (os : List (Op P)) (g g' : Graph P) (hr : run create os = some g)
    (hf : Forest (contents os)) (he : contents os "" = none)
    (hi : index g = some (Status.ok, g')) : ∃ s, Indexed g' s ∧ find g'.map = contents os := by
  have hreach := reach_run reach_create hr
  have hne : ∀ f ∈ g.map, f.name ≠ "" := by
    intro f hm h0
    rw [mem_map_iff hr, h0, he] at hm
    simp at hm
  obtain ⟨s, hs, hm, -, -, -⟩ := reach_indexed hreach hi (forest_acyclic hr hf) hne
  exact ⟨s, hs, by rw [hm]; funext n; exact find_run hr n⟩

/-- What a chain must contain, given the frames after its root. -/
def IsChain (g : Graph P) (t : String) (rest : List (Frame P)) (sub : Sub) : Prop :=
  sub.frameCount = rest.length ∧
  (∀ (i : Nat) (f : Frame P), rest[i]? = some f → sub.frames i = frameId g f.name) ∧
  sub.configCount = (rest.filter (fun f => f.kind ≠ Kind.fixed)).length ∧
  (∀ (i : Nat) (f : Frame P), (rest.filter (fun f => f.kind ≠ Kind.fixed))[i]? = some f →
    sub.configs i = configId g f.config) ∧
  sub.ees = some [frameId g t]

theorem chain_main {g : Graph P} {s : NumSt P} (h : Indexed g s) {b r t : String}
    {fr rest : List (Frame P)} (hb : b = r ∨ b = "") (hfr : IsPath (find g.map) b fr)
    (ht : IsPath (find g.map) t (fr ++ rest)) (hne : ∀ f ∈ rest, f.name ≠ r) :
    ∀ fuel, rest.length < fuel → ∀ fbuf cbuf, ∃ sub,
      chainCreate g (frameId g r) (frameId g t) fuel fbuf cbuf = some sub ∧
      IsChain g t rest sub := by
  intro fuel hfuel fbuf cbuf
  obtain ⟨fs, f1, f2, -⟩ := chainFrames_eq h hb hfr rest t fuel rest.length fbuf ht hne hfuel
  have hfs : ∀ (i : Nat) (f : Frame P), rest[i]? = some f → fs i = frameId g f.name := by
    intro i f hif
    have := f2 i f hif (by omega)
    rwa [Nat.add_sub_cancel] at this
  have hmem : ∀ f ∈ rest, f ∈ g.map := fun f hf => ht.mem f (by simp [hf])
  have hcc := chainConfigCount_eq h fs rest hmem hfs
  obtain ⟨cs, c1, c2, -⟩ := chainConfigs_eq h fs (joints rest).length rest 0 0 cbuf hmem
    (fun k f hk => by rw [Nat.zero_add]; exact hfs k f hk) (by omega)
  refine ⟨⟨rest.length, fs, (joints rest).length, cs, some [frameId g t]⟩, ?_, rfl, hfs, rfl, ?_,
    rfl⟩
  · unfold chainCreate
    rw [chainCount_eq h hb hfr rest t fuel ht hne hfuel]
    simp only [f1, hcc, c1]
  · intro i f hif
    have := c2 i f hif
    rwa [Nat.zero_add] at this

/-- C55: the chain from a frame (or the root) to a frame below it: after `r` on the path of `t` come
the frames `rest`; the chain has exactly them, in order, the count computed beforehand is right, and
the configurations are those of the joints among them.  `fuel` bounds the number of loop
iterations: the loops end. -/
theorem C55_chain_partial (os : List (Op P)) (g g' : Graph P) (hr : run create os = some g)
    (hf : Forest (contents os)) (he : contents os "" = none)
    (hi : index g = some (Status.ok, g')) (r t : String) (fr rest : List (Frame P))
    (hfr : IsPath (contents os) r fr) (ht : IsPath (contents os) t (fr ++ rest)) :
    ∀ fuel, rest.length < fuel → ∀ fbuf cbuf, ∃ sub,
      chainCreate g' (frameId g' r) (frameId g' t) fuel fbuf cbuf = some sub ∧
      IsChain g' t rest sub := by
  obtain ⟨s, hs, hc⟩ := indexed_of' os g g' hr hf he hi
  rw [← hc] at hfr ht
  refine chain_main hs (Or.inl rfl) hfr ht ?_
  intro f hfm hn
  obtain ⟨l1, l2, rfl⟩ := List.append_of_mem hfm
  have h1 : fr ++ (l1 ++ f :: l2) = (fr ++ l1) ++ [f] ++ l2 := by simp
  rw [h1] at ht
  have := ht.prefix
  rw [hn] at this
  have := hfr.unique this
  have := congrArg List.length this
  simp at this

/-- C55: when the given root is not on the path of the tip, the chain is the whole path from the
scene graph's root. -/
theorem C55_other_root_partial (os : List (Op P)) (g g' : Graph P) (hr : run create os = some g)
    (hf : Forest (contents os)) (he : contents os "" = none)
    (hi : index g = some (Status.ok, g')) (r t : String) (fs : List (Frame P))
    (ht : IsPath (contents os) t fs) (hne : ∀ f ∈ fs, f.name ≠ r) :
    ∀ fuel, fs.length < fuel → ∀ fbuf cbuf, ∃ sub,
      chainCreate g' (frameId g' r) (frameId g' t) fuel fbuf cbuf = some sub ∧
      IsChain g' t fs sub := by
  obtain ⟨s, hs, hc⟩ := indexed_of' os g g' hr hf he hi
  rw [← hc] at ht
  exact chain_main hs (fr := []) (Or.inr rfl) IsPath.root ht hne

/-- C55: every frame has a path, so the theorems above apply to every tip. -/
theorem C55_path_exists (os : List (Op P)) (g g' : Graph P) (hr : run create os = some g)
    (hf : Forest (contents os)) (he : contents os "" = none)
    (hi : index g = some (Status.ok, g')) (t : String) (f : Frame P)
    (ht : contents os t = some f) : ∃ fs, IsPath (contents os) t fs := by
  obtain ⟨s, hs, hc⟩ := indexed_of' os g g' hr hf he hi
  rw [← hc] at ht ⊢
  have key : ∀ (i : Nat) (e : Entry P), s.entries[i]? = some e →
      ∃ fs, IsPath (find g'.map) e.frame.name fs := by
    intro i
    induction i using Nat.strong_induction_on with
    | _ i ih =>
      intro e hie
      have hm := (hs.frameId_entry hie).2
      rcases hs.inv.parent i e hie with ⟨h1, -⟩ | ⟨-, j, h2, h3, -⟩
      · exact ⟨[] ++ [e.frame], IsPath.step (hs.ne _ hm) (find_eq hs.nodup hm) (h1 ▸ IsPath.root)⟩
      · cases hj : s.entries[j]? with
        | none => rw [hj] at h3; simp at h3
        | some e' =>
          rw [hj] at h3
          simp only [Option.map_some, Option.some.injEq] at h3
          obtain ⟨fs, hfs⟩ := ih j h2 e' hj
          exact ⟨fs ++ [e.frame], IsPath.step (hs.ne _ hm) (find_eq hs.nodup hm) (h3 ▸ hfs)⟩
  obtain ⟨h1, rfl⟩ := find_some ht
  obtain ⟨i, e, h2, rfl, -⟩ := hs.exists_entry h1
  exact key i e h2

/-- C55 fails for chains with several tips: `aa_rx_sg_chain_multiple_frames` returns no frame,
whatever the graph, the root and the tips. -/
theorem C55_violates_multiple (g : Graph P) (root : Int) (fuel : Nat) (tips : List Int)
    (cbuf : Nat → Int) :
    multipleFrames g root (fuel + 1) tips [] = some [] ∧
    ∃ sub, multipleChainCreate g root tips (fuel + 1) cbuf = some sub ∧ sub.frameCount = 0 ∧
      sub.configCount = 0 ∧ sub.ees = none := by
  have h1 : ∀ tips, multipleFrames g root (fuel + 1) tips [] = some [] := by
    intro tips
    induction tips with
    | nil => simp [multipleFrames]
    | cons t ts ih =>
      have : multiClimb g root (fuel + 1) t [] = some [] := by
        unfold multiClimb
        split_ifs <;> simp_all
      rw [multipleFrames, this]
      exact ih
  refine ⟨h1 tips, ?_⟩
  unfold multipleChainCreate
  rw [h1 tips]
  exact ⟨_, rfl, rfl, rfl, rfl⟩

/-! ## C54 -/

section
variable {K : Type} (s : Sub)

/-- C54: scattering writes exactly the sub-graph's configurations (the last one listed wins),
gathering reads them, for all increments. -/
theorem C54_scatter (nAll : Nat) (hc : ∀ j, j < s.configCount → 0 ≤ s.configs j)
    (sub all : Nat → K) (subInc allInc : Nat) (hinc : 0 < allInc) :
    ∃ out, scatter s nAll s.configCount subInc sub nAll allInc all = some out ∧
      (∀ c : Nat, (∀ j, j < s.configCount → s.configs j ≠ (c : Int)) →
        out (c * allInc) = all (c * allInc)) ∧
      (∀ k, ¬ allInc ∣ k → out k = all k) ∧
      (∀ j, j < s.configCount →
        (∀ j', j < j' → j' < s.configCount → s.configs j' ≠ s.configs j) →
        out ((s.configs j).toNat * allInc) = sub (j * subInc)) := by
  unfold scatter
  rw [if_neg (by simp), scatterLoop_eq s sub subInc allInc _ 0 all
    (fun j _ h => hc j (by omega))]
  refine ⟨_, rfl, fun c hne => ?_, fun k hk => ?_, fun j hj hlast => ?_⟩
  · apply writes_frame
    intro j _ h2 e
    have e' := Nat.eq_of_mul_eq_mul_right hinc e
    have := hc j (by omega)
    exact hne j (by omega) (by omega)
  · apply writes_frame
    intro j _ _ e
    exact hk ⟨_, by rw [e, Nat.mul_comm]⟩
  · exact writes_get (fun j => (s.configs j).toNat * allInc) (fun j => sub (j * subInc)) _ 0 all j
      (by omega) (by omega) (fun j' h1 h2 e => by
        have e' := Nat.eq_of_mul_eq_mul_right hinc e
        have := hc j (by omega)
        have := hc j' (by omega)
        exact hlast j' h1 (by omega) (by omega))

/-- C54: gathering. -/
theorem C54_gather (nAll : Nat) (hc : ∀ j, j < s.configCount → 0 ≤ s.configs j)
    (sub all : Nat → K) (subInc allInc : Nat) (hinc : 0 < subInc) :
    ∃ out, gather s nAll nAll allInc all s.configCount subInc sub = some out ∧
      (∀ j, j < s.configCount → out (j * subInc) = all ((s.configs j).toNat * allInc)) ∧
      (∀ k, (∀ j, j < s.configCount → k ≠ j * subInc) → out k = sub k) := by
  unfold gather
  rw [if_neg (by simp), gatherLoop_eq s all allInc subInc _ 0 sub (fun j _ h => hc j (by omega))]
  refine ⟨_, rfl, fun j hj => ?_, fun k hk => ?_⟩
  · exact writes_get (fun j => j * subInc) (fun j => all ((s.configs j).toNat * allInc)) _ 0 sub j
      (by omega) (by omega) (fun j' h1 h2 e => by
        have e' := Nat.eq_of_mul_eq_mul_right hinc e
        omega)
  · apply writes_frame
    intro j _ h2
    exact hk j (by omega)

/-- C54: gathering after scattering returns the sub-configuration, when no configuration is listed
twice. -/
theorem C54_round_trip_partial (nAll : Nat) (hc : ∀ j, j < s.configCount → 0 ≤ s.configs j)
    (hinj : ∀ i j, i < j → j < s.configCount → s.configs i ≠ s.configs j)
    (sub all sub2 : Nat → K) (subInc allInc subInc2 : Nat) (hinc : 0 < allInc) (hinc2 : 0 < subInc2) :
    ∃ mid out, scatter s nAll s.configCount subInc sub nAll allInc all = some mid ∧
      gather s nAll nAll allInc mid s.configCount subInc2 sub2 = some out ∧
      ∀ j, j < s.configCount → out (j * subInc2) = sub (j * subInc) := by
  obtain ⟨mid, m1, -, -, m2⟩ := C54_scatter s nAll hc sub all subInc allInc hinc
  obtain ⟨out, o1, o2, -⟩ := C54_gather s nAll hc sub2 mid subInc2 allInc hinc2
  refine ⟨mid, out, m1, o1, fun j hj => ?_⟩
  rw [o2 j hj, m2 j hj (fun j' h1 h2 e => hinj j j' h1 h2 e.symm)]

/-- C54: expanding a path: every point has the start configuration outside the sub-graph and the
sub-path's values inside, and nothing else is written. -/
theorem C54_expand (nAll nPts : Nat)
    (hc : ∀ j, j < s.configCount → 0 ≤ s.configs j ∧ s.configs j < nAll)
    (start path all : Nat → K) :
    ∃ out, expandPath s nAll nPts (some start) path all = some out ∧
      (∀ k, nPts * nAll ≤ k → out k = all k) ∧
      ∀ m, m < nPts → ∀ c, c < nAll →
        ((∀ j, j < s.configCount → s.configs j ≠ c) → out (m * nAll + c) = start c) ∧
        (∀ j, j < s.configCount → s.configs j = c →
          (∀ j', j < j' → j' < s.configCount → s.configs j' ≠ c) →
          out (m * nAll + c) = path (m * s.configCount + j)) := by
  obtain ⟨out, o1, o2, o3⟩ := setPoints_eq s nAll path hc nPts 0 (fillStart nAll start nPts all)
  refine ⟨out, o1, fun k hk => ?_, fun m hm c hcn => ?_⟩
  · rw [o2 k (by rw [Nat.zero_add]; omega), fillStart_eq, if_neg (by omega)]
  · obtain ⟨p1, p2⟩ := o3 m (by omega) (by omega) c hcn
    refine ⟨fun hne => ?_, p2⟩
    have hlt : m * nAll + c < nPts * nAll := by
      have : (m + 1) * nAll ≤ nPts * nAll := Nat.mul_le_mul_right _ (by omega)
      rw [Nat.succ_mul] at this
      omega
    rw [p1 hne, fillStart_eq, if_pos hlt]
    congr 1
    rw [Nat.add_comm, Nat.add_mul_mod_self_right, Nat.mod_eq_of_lt hcn]

/-- C54: the same round trip for `aa_rx_sg_sub_config_set` and `aa_rx_sg_sub_config_get`. -/
theorem C54_set_get_partial (hc : ∀ j, j < s.configCount → 0 ≤ s.configs j)
    (hinj : ∀ i j, i < j → j < s.configCount → s.configs i ≠ s.configs j)
    (sub all sub2 : Nat → K) :
    ∃ mid out, configSet s sub 0 0 s.configCount 0 all = some mid ∧
      configGet s mid s.configCount 0 sub2 = some out ∧
      (∀ c : Nat, (∀ j, j < s.configCount → s.configs j ≠ (c : Int)) → mid c = all c) ∧
      ∀ j, j < s.configCount → out j = sub j := by
  have h0 : ∀ j, 0 ≤ j → j < 0 + s.configCount → 0 ≤ s.configs j := fun j _ h => hc j (by omega)
  rw [configSet_eq s sub 0 0 _ 0 all h0]
  refine ⟨_, _, rfl, configGet_eq s _ _ 0 sub2 h0, fun c hne => ?_, fun j hj => ?_⟩
  · apply writes_frame
    intro j _ h2 e
    have := hc j (by omega)
    exact hne j (by omega) (by omega)
  · rw [writes_get (fun j => j) _ _ 0 sub2 j (by omega) (by omega) (fun j' h1 _ => by omega)]
    have := writes_get (fun j => 0 + (s.configs j).toNat) (fun j => sub (0 + j)) s.configCount 0 all
      j (by omega) (by omega) (fun j' h1 h2 e => by
        have := hc j (by omega)
        have := hc j' (by omega)
        exact hinj j j' h1 (by omega) (by omega))
    simpa using this

end

/-- C54: the hypotheses about the configurations hold for the chains of the theorems of C55 whose
joints have different configurations: the numbers are valid and different. -/
theorem C54_chain_configs_partial (os : List (Op P)) (g g' : Graph P) (hr : run create os = some g)
    (hf : Forest (contents os)) (he : contents os "" = none)
    (hi : index g = some (Status.ok, g')) (t : String) (fs rest : List (Frame P))
    (ht : IsPath (contents os) t fs) (hsub : ∀ f ∈ rest, f ∈ fs)
    (hnd : ((rest.filter (fun f => f.kind ≠ Kind.fixed)).map (·.config)).Nodup)
    (sub : Sub) (hch : IsChain g' t rest sub) :
    (∀ j, j < sub.configCount → 0 ≤ sub.configs j ∧ ∃ n, configCount g' = some n ∧
      sub.configs j < n) ∧
    (∀ i j, i < j → j < sub.configCount → sub.configs i ≠ sub.configs j) := by
  obtain ⟨s, hs, hc⟩ := indexed_of' os g g' hr hf he hi
  obtain ⟨-, -, c1, c2, -⟩ := hch
  set js := rest.filter (fun f => f.kind ≠ Kind.fixed) with hjs
  have get : ∀ j, j < sub.configCount → ∃ f : Frame P, js[j]? = some f ∧
      contents os f.name = some f ∧ f.IsJoint ∧ sub.configs j = configId g' f.config := by
    intro j hj
    have hj' : j < js.length := by omega
    refine ⟨js[j], List.getElem?_eq_getElem hj', ?_, ?_, c2 j _ (List.getElem?_eq_getElem hj')⟩
    · have h1 := hsub _ (List.mem_filter.1 (List.getElem_mem hj')).1
      rw [← hc] at ht ⊢
      exact find_eq hs.nodup (ht.mem _ h1)
    · have := (List.mem_filter.1 (List.getElem_mem hj')).2
      unfold Frame.IsJoint
      simpa using this
  by_cases hm : g.map = []
  · have h0 : sub.configCount = 0 := by
      by_contra h0
      obtain ⟨f, -, h2, -⟩ := get 0 (by omega)
      have := (contents_name hr h2).2
      rw [hm] at this
      simp at this
    exact ⟨fun j hj => by omega, fun i j _ hj => by omega⟩
  · obtain ⟨n, n1, n2, -, -, n3, -⟩ := C49_configs_partial os g g' hr hf he (Or.inr hm) hi
    refine ⟨fun j hj => ?_, fun i j hij hj e => ?_⟩
    · obtain ⟨f, -, f2, f3, f4⟩ := get j hj
      obtain ⟨k1, k2, -⟩ := n2 f.config ⟨_, f, f2, f3, rfl⟩
      rw [f4]
      exact ⟨k1, n, n1, k2⟩
    · obtain ⟨f, f1, f2, f3, f4⟩ := get i (by omega)
      obtain ⟨f', f1', -, -, f4'⟩ := get j hj
      rw [f4, f4'] at e
      have hcfg := n3 _ _ ⟨_, f, f2, f3, rfl⟩ e
      have l1 := (List.getElem?_eq_some_iff.1 f1)
      have l2 := (List.getElem?_eq_some_iff.1 f1')
      obtain ⟨l1, rfl⟩ := l1
      obtain ⟨l2, rfl⟩ := l2
      have := (List.nodup_iff_injective_get.1 hnd)
        (a₁ := ⟨i, by rw [List.length_map]; exact l1⟩)
        (a₂ := ⟨j, by rw [List.length_map]; exact l2⟩) (by simp [hcfg])
      simp only [Fin.mk.injEq] at this
      omega

/-! ## Concrete cases -/

/-- The frames of `exOps`: `tip` is below `mid` below `zbase`. -/
theorem exOps_path : IsPath (contents exOps) "tip"
    ([fr "zbase" "" Kind.fixed ""] ++
      [fr "mid" "zbase" Kind.prismatic "q0", fr "tip" "mid" Kind.revolute "q1"]) := by
  have h1 : IsPath (contents exOps) "zbase" ([] ++ [fr "zbase" "" Kind.fixed ""]) :=
    IsPath.step (n := "zbase") (by decide) rfl IsPath.root
  have h2 : IsPath (contents exOps) "mid" (([] ++ [fr "zbase" "" Kind.fixed ""]) ++
      [fr "mid" "zbase" Kind.prismatic "q0"]) :=
    IsPath.step (n := "mid") (by decide) rfl h1
  have h3 := IsPath.step (c := contents exOps) (n := "tip")
    (f := fr "tip" "mid" Kind.revolute "q1") (by decide) rfl h2
  exact h3

/-- The chain from `zbase` to `tip` is `mid`, `tip` (numbers 1 and 3) with configurations 0, 1. -/
example : ((run create exOps).bind index).bind (fun r =>
    (chainCreate r.2 0 3 9 (fun _ => 7) (fun _ => 7)).map (fun s =>
      (s.frameCount, s.frames 0, s.frames 1, s.frames 2, s.configCount, s.configs 0))) =
    some (2, 1, 3, 7, 2, 0) := by decide +kernel

/-- Two joints in a row that name the same configuration. -/
def dupOps : List (Op _root_.Unit) :=
  [Op.add (fr "a" "" Kind.revolute "q"), Op.add (fr "b" "a" Kind.revolute "q")]

/-- C54 fails for a chain whose joints share a configuration: the configuration is listed twice,
and gathering after scattering (1, 2) returns (2, 2). -/
theorem C54_violates_shared :
    ((run create dupOps).bind index).bind (fun r =>
      (chainCreate r.2 (-1) 1 9 (fun _ => 0) (fun _ => 0)).bind (fun s =>
        (scatter s 1 2 1 (fun i => i + 1) 1 1 (fun _ => 0)).bind (fun mid =>
          (gather s 1 1 1 mid 2 1 (fun _ => 0)).map (fun out =>
            (s.configCount, s.configs 0, s.configs 1, out 0, out 1))))) =
      some (2, 0, 0, 2, 2) := by decide +kernel

/-- A sub-graph with different configurations (2 and 0 of 3), as in the round trip. -/
example : (scatter ⟨0, fun _ => 0, 2, fun i => if i = 0 then 2 else 0, none⟩ 3 2 1 (fun i => i + 5)
    3 2 (fun _ => 0)).map (fun m => (m 0, m 2, m 4)) = some (6, 0, 5) := by decide +kernel

/-- C55 when the root is not above the tip: the chain from `other` to `tip` starts at the scene
graph's root. -/
example : ((run create exOps).bind index).bind (fun r =>
    (chainCreate r.2 2 3 9 (fun _ => 7) (fun _ => 7)).map (fun s =>
      (s.frameCount, s.frames 0, s.frames 1, s.frames 2))) = some (3, 0, 1, 3) := by
  decide +kernel

end Verif.Sg
