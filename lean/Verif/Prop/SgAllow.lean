import Verif.Prop.SgCl
import Verif.Proof.SgSub
import Verif.Prop.SgIndex

/-!
# C57: allowed collisions survive indexing
-/

namespace Verif.Sg

/-- Specification: the pairs of names that are allowed.  A call of
`aa_rx_sg_allow_collision` names its frames by their numbers at the time of the call. -/
def specAllow (c : ColGraph) (A : Sym2 String → Bool) : ColOp → Sym2 String → Bool
  | ColOp.allowName a b x => Function.update A s(a, b) x
  | ColOp.allow i j x =>
    match frameName c.g i, frameName c.g j with
    | some a, some b => Function.update A s(a, b) x
    | _, _ => A
  | _ => A

/-- The allowed pairs after a history: the last call for a pair counts. -/
def specAllowed (c : ColGraph) (A : Sym2 String → Bool) : List ColOp → Sym2 String → Bool
  | [] => A
  | o :: os =>
    match colStep c o with
    | none => A
    | some c' => specAllowed c' (specAllow c A o) os

/-- The names of the frames added. -/
def added : List ColOp → List String
  | [] => []
  | ColOp.add n _ _ _ :: os => n :: added os
  | _ :: os => added os

/-- No frame is removed or replaced. -/
def NoDelete (os : List ColOp) : Prop := (added os).Nodup ∧ ∀ n, ColOp.rm n ∉ os

/-- The calls that change the frames; `k` is the number of the next frame object. -/
def frameOps : Nat → List ColOp → List (Op Nat)
  | _, [] => []
  | k, ColOp.add n p kd q :: os => Op.add ⟨n, p, kd, q, k⟩ :: frameOps (k + 1) os
  | k, ColOp.rm n :: os => Op.rm n :: frameOps k os
  | k, ColOp.init :: os => Op.init :: frameOps k os
  | k, _ :: os => frameOps k os

theorem allowName_g {c c' : ColGraph} {a b : String} {x : Bool} (h : allowName c a b x = some c') :
    c'.g = c.g ∧ c'.next = c.next := by
  unfold allowName at h
  dsimp only at h
  split at h
  · cases h; exact ⟨rfl, rfl⟩
  · simp at h

theorem allowId_name {c c' : ColGraph} {i j : Int} {x : Bool} (h : allowId c i j x = some c') :
    ∃ a b, frameName c.g i = some a ∧ frameName c.g j = some b ∧ allowName c a b x = some c' := by
  unfold allowId at h
  split_ifs at h
  split at h
  · exact ⟨_, _, ‹_›, ‹_›, h⟩
  · simp at h

theorem clInit_g {c c' : ColGraph} (h : clInit c = some c') :
    c'.g = c.g ∧ c'.next = c.next ∧ c'.allowed = c.allowed := by
  unfold clInit at h
  split at h
  · simp at h
  · cases h; exact ⟨rfl, rfl, rfl⟩
  · split_ifs at h
    rw [Option.map_eq_some_iff] at h
    obtain ⟨l, -, rfl⟩ := h
    exact ⟨rfl, rfl, rfl⟩

/-- The frames after a history are those of the frame calls in it. -/
theorem colRun_frames : ∀ (os : List ColOp) (c c' : ColGraph), colRun c os = some c' →
    run c.g (frameOps c.next os) = some c'.g := by
  intro os
  induction os with
  | nil => intro c c' h; cases h; rfl
  | cons o os ih =>
    intro c c' h
    simp only [colRun] at h
    cases hs : colStep c o with
    | none => rw [hs] at h; simp at h
    | some c1 =>
      rw [hs] at h
      have := ih c1 c' h
      cases o with
      | add n p k q => cases hs; exact this
      | rm n => cases hs; exact this
      | init =>
        simp only [colStep, colInit, Option.map_eq_some_iff] at hs
        obtain ⟨r, h1, rfl⟩ := hs
        simp only [frameOps, run, step, h1, Option.map_some]
        exact this
      | allow i j b =>
        obtain ⟨x, y, -, -, h1⟩ := allowId_name hs
        rw [(allowName_g h1).1, (allowName_g h1).2] at this
        exact this
      | allowName a b x => rw [(allowName_g hs).1, (allowName_g hs).2] at this; exact this
      | dirtyGeom => cases hs; exact this
      | clInit => rw [(clInit_g hs).1, (clInit_g hs).2.1] at this; exact this

/-- Invariant of histories without deletions. -/
structure ColInv (c : ColGraph) (A : Sym2 String → Bool) : Prop where
  reach : Reach c.g
  lt : ∀ f ∈ c.g.map, f.body < c.next
  inj : ∀ f ∈ c.g.map, ∀ f' ∈ c.g.map, f.body = f'.body → f = f'
  all : ∀ p, p ∈ c.allowed ↔ ∃ f0 ∈ c.g.map, ∃ f1 ∈ c.g.map, p = (f0.body, f1.body) ∧
    f0.name ≤ f1.name ∧ A s(f0.name, f1.name) = true
  dom : ∀ a b, A s(a, b) = true → a ∈ names c.g.map ∧ b ∈ names c.g.map

theorem pair_le {a b x y : String} (hab : a ≤ b) (hxy : x ≤ y) (h : s(a, b) = s(x, y)) :
    a = x ∧ b = y := by
  rcases Sym2.eq_iff.1 h with h | ⟨rfl, rfl⟩
  · exact h
  · have := le_antisymm hab hxy
    exact ⟨this, this.symm⟩

theorem colInv_allow {c c' : ColGraph} {A : Sym2 String → Bool} (h : ColInv c A) {a b : String}
    {x : Bool} (hs : allowName c a b x = some c') :
    ColInv c' (Function.update A s(a, b) x) := by
  unfold allowName at hs
  dsimp only at hs
  have hord : ∃ u v, (if a < b then (a, b) else (b, a)) = (u, v) ∧ u ≤ v ∧ s(a, b) = s(u, v) := by
    by_cases hab : a < b
    · exact ⟨a, b, if_pos hab, le_of_lt hab, rfl⟩
    · exact ⟨b, a, if_neg hab, not_lt.1 hab, Sym2.eq_swap⟩
  obtain ⟨u, v, e1, huv, e2⟩ := hord
  rw [e1] at hs
  rw [e2]
  split at hs
  · rename_i p0 p1 h0 h1
    cases hs
    simp only [namePtr, Option.map_eq_some_iff] at h0 h1
    obtain ⟨f0, h0, rfl⟩ := h0
    obtain ⟨f1, h1, rfl⟩ := h1
    obtain ⟨m0, rfl⟩ := find_some h0
    obtain ⟨m1, rfl⟩ := find_some h1
    -- a pair of frames is this one exactly when the names are
    have key : ∀ g0 ∈ c.g.map, ∀ g1 ∈ c.g.map, g0.name ≤ g1.name →
        ((g0.body, g1.body) = (f0.body, f1.body) ↔ s(g0.name, g1.name) = s(f0.name, f1.name)) := by
      intro g0 k0 g1 k1 hle
      constructor
      · intro hp
        simp only [Prod.mk.injEq] at hp
        rw [h.inj g0 k0 f0 m0 hp.1, h.inj g1 k1 f1 m1 hp.2]
      · intro hp
        obtain ⟨n0, n1⟩ := pair_le hle huv hp
        rw [eq_of_name h.reach.sorted.nodup k0 m0 n0, eq_of_name h.reach.sorted.nodup k1 m1 n1]
    refine ⟨h.reach, h.lt, h.inj, fun p => ?_, fun y z hyz => ?_⟩
    · cases x with
      | true =>
        have hmem : (p ∈ if true = true then (if (f0.body, f1.body) ∈ c.allowed then c.allowed else
            c.allowed ++ [(f0.body, f1.body)]) else c.allowed.filter
              (fun p => p ≠ (f0.body, f1.body))) ↔ p ∈ c.allowed ∨ p = (f0.body, f1.body) := by
          rw [if_pos rfl]
          split_ifs with hin
          · exact ⟨Or.inl, fun hp => hp.elim id (fun hp => hp ▸ hin)⟩
          · simp
        refine hmem.trans ?_
        rw [h.all p]
        constructor
        · rintro (⟨g0, k0, g1, k1, rfl, hle, hA⟩ | rfl)
          · refine ⟨g0, k0, g1, k1, rfl, hle, ?_⟩
            by_cases hp : s(g0.name, g1.name) = s(f0.name, f1.name)
            · rw [hp, Function.update_self]
            · rw [Function.update_of_ne hp, hA]
          · exact ⟨f0, m0, f1, m1, rfl, huv, by rw [Function.update_self]⟩
        · rintro ⟨g0, k0, g1, k1, rfl, hle, hA⟩
          by_cases hp : s(g0.name, g1.name) = s(f0.name, f1.name)
          · exact Or.inr ((key g0 k0 g1 k1 hle).2 hp)
          · rw [Function.update_of_ne hp] at hA
            exact Or.inl ⟨g0, k0, g1, k1, rfl, hle, hA⟩
      | false =>
        have hmem : (p ∈ if false = true then (if (f0.body, f1.body) ∈ c.allowed then c.allowed else
            c.allowed ++ [(f0.body, f1.body)]) else c.allowed.filter
              (fun p => p ≠ (f0.body, f1.body))) ↔ p ∈ c.allowed ∧ p ≠ (f0.body, f1.body) := by
          rw [if_neg (by simp), List.mem_filter]
          simp
        refine hmem.trans ?_
        rw [h.all p]
        constructor
        · rintro ⟨⟨g0, k0, g1, k1, rfl, hle, hA⟩, hne⟩
          refine ⟨g0, k0, g1, k1, rfl, hle, ?_⟩
          rw [Function.update_of_ne (fun hp => hne ((key g0 k0 g1 k1 hle).2 hp)), hA]
        · rintro ⟨g0, k0, g1, k1, rfl, hle, hA⟩
          have hp : s(g0.name, g1.name) ≠ s(f0.name, f1.name) := by
            intro hp
            rw [hp, Function.update_self] at hA
            simp at hA
          rw [Function.update_of_ne hp] at hA
          exact ⟨⟨g0, k0, g1, k1, rfl, hle, hA⟩, fun he => hp ((key g0 k0 g1 k1 hle).1 he)⟩
    · by_cases hp : s(y, z) = s(f0.name, f1.name)
      · have q0 : f0.name ∈ names c.g.map := List.mem_map_of_mem m0
        have q1 : f1.name ∈ names c.g.map := List.mem_map_of_mem m1
        rcases Sym2.eq_iff.1 hp with ⟨rfl, rfl⟩ | ⟨rfl, rfl⟩
        · exact ⟨q0, q1⟩
        · exact ⟨q1, q0⟩
      · rw [Function.update_of_ne hp] at hyz
        exact h.dom y z hyz
  · simp at hs

theorem colInv_run : ∀ (os : List ColOp) (c c' : ColGraph) (A : Sym2 String → Bool), ColInv c A →
    colRun c os = some c' → (added os).Nodup → (∀ n ∈ added os, n ∉ names c.g.map) →
    (∀ n, ColOp.rm n ∉ os) → ColInv c' (specAllowed c A os) := by
  intro os
  induction os with
  | nil => intro c c' A h hr _ _ _; cases hr; exact h
  | cons o os ih =>
    intro c c' A h hr hnd hfresh hrm
    simp only [colRun] at hr
    cases hs : colStep c o with
    | none => rw [hs] at hr; simp at hr
    | some c1 =>
      rw [hs] at hr
      simp only [specAllowed, hs]
      have hrm' : ∀ n, ColOp.rm n ∉ os := fun n hn => hrm n (by simp [hn])
      cases o with
      | add n p k q =>
        cases hs
        simp only [added, List.nodup_cons] at hnd
        have hn := hfresh n (by simp [added])
        have hmem : ∀ x, x ∈ mapPut c.g.map ⟨n, p, k, q, c.next⟩ ↔
            x = ⟨n, p, k, q, c.next⟩ ∨ x ∈ c.g.map := by
          intro x
          rw [mem_mapPut h.reach.sorted]
          constructor
          · rintro (h1 | h1)
            · exact Or.inl h1
            · exact Or.inr h1.1
          · rintro (h1 | h1)
            · exact Or.inl h1
            · refine Or.inr ⟨h1, fun h2 => hn ?_⟩
              have := List.mem_map_of_mem (f := (·.name)) h1
              rw [h2] at this
              exact this
        refine ih _ c' A ⟨?_, ?_, ?_, ?_, ?_⟩ hr hnd.2 ?_ hrm'
        · exact reach_step (o := Op.add ⟨n, p, k, q, c.next⟩) h.reach rfl
        · intro f hf
          rcases (hmem f).1 hf with rfl | hf
          · exact Nat.lt_succ_self _
          · exact Nat.lt_succ_of_lt (h.lt f hf)
        · intro f hf f' hf' hb
          rcases (hmem f).1 hf with rfl | hf <;> rcases (hmem f').1 hf' with rfl | hf'
          · rfl
          · have := h.lt f' hf'
            simp only at hb
            omega
          · have := h.lt f hf
            simp only at hb
            omega
          · exact h.inj f hf f' hf' hb
        · intro x
          refine (h.all x).trans ?_
          constructor
          · rintro ⟨g0, k0, g1, k1, e⟩
            exact ⟨g0, (hmem g0).2 (Or.inr k0), g1, (hmem g1).2 (Or.inr k1), e⟩
          · rintro ⟨g0, k0, g1, k1, e1, e2, e3⟩
            obtain ⟨d0, d1⟩ := h.dom _ _ e3
            refine ⟨g0, ?_, g1, ?_, e1, e2, e3⟩
            · rcases (hmem g0).1 k0 with rfl | k0
              · exact absurd d0 hn
              · exact k0
            · rcases (hmem g1).1 k1 with rfl | k1
              · exact absurd d1 hn
              · exact k1
        · intro a b hab
          have sub : ∀ z, z ∈ names c.g.map → z ∈ names (mapPut c.g.map ⟨n, p, k, q, c.next⟩) := by
            intro z hz
            obtain ⟨f, hf, rfl⟩ := List.mem_map.1 hz
            exact List.mem_map_of_mem ((hmem f).2 (Or.inr hf))
          exact ⟨sub _ (h.dom a b hab).1, sub _ (h.dom a b hab).2⟩
        · intro z hz hz'
          obtain ⟨f, hf, rfl⟩ := List.mem_map.1 hz'
          rcases (hmem f).1 hf with rfl | hf
          · exact hnd.1 hz
          · exact hfresh f.name (by simp [added, hz]) (List.mem_map_of_mem hf)
      | rm n => exact absurd (by simp) (hrm n)
      | init =>
        simp only [colStep, colInit, Option.map_eq_some_iff] at hs
        obtain ⟨r, h1, rfl⟩ := hs
        have hm : r.2.map = c.g.map := by
          obtain ⟨st, g', h2, h3⟩ := index_total (g := c.g)
          rw [h1] at h2
          cases h2
          exact h3
        refine ih _ c' A ⟨?_, ?_, ?_, ?_, ?_⟩ hr hnd ?_ hrm'
        · exact reach_step (o := Op.init) h.reach (by simp [step, h1])
        · simp only [hm]; exact h.lt
        · simp only [hm]; exact h.inj
        · simp only [hm]; exact h.all
        · simp only [hm]; exact h.dom
        · simp only [hm]; exact hfresh
      | allow i j b =>
        obtain ⟨x, y, e1, e2, e3⟩ := allowId_name hs
        simp only [specAllow, e1, e2]
        exact ih _ c' _ (colInv_allow h e3) hr hnd (by rw [(allowName_g e3).1]; exact hfresh) hrm'
      | allowName x y b =>
        exact ih _ c' _ (colInv_allow h hs) hr hnd (by rw [(allowName_g hs).1]; exact hfresh) hrm'
      | dirtyGeom =>
        cases hs
        exact ih _ c' _ ⟨h.reach, h.lt, h.inj, h.all, h.dom⟩ hr hnd hfresh hrm'
      | clInit =>
        obtain ⟨e1, e2, e3⟩ := clInit_g hs
        refine ih _ c' _ ⟨?_, ?_, ?_, ?_, ?_⟩ hr hnd (by rw [e1]; exact hfresh) hrm'
        · rw [e1]; exact h.reach
        · rw [e1, e2]; exact h.lt
        · rw [e1]; exact h.inj
        · rw [e1, e3]; exact h.all
        · rw [e1]; exact h.dom

theorem allowedIdx_eq {c : ColGraph} (nm : Nat → String) : ∀ l : List (Nat × Nat),
    (∀ p ∈ l, deref c p.1 = some (nm p.1) ∧ deref c p.2 = some (nm p.2)) →
    allowedIdx c l = some (l.map (fun p => (frameId c.g (nm p.1), frameId c.g (nm p.2)))) := by
  intro l
  induction l with
  | nil => intro _; rfl
  | cons p l ih =>
    intro h
    obtain ⟨h1, h2⟩ := h p (by simp)
    simp only [allowedIdx, h1, h2, ih (fun p hp => h p (by simp [hp])), List.map_cons]

/-- C57 for the histories in which no frame is removed or replaced and the collision data was
marked dirty since the last `aa_rx_sg_cl_init`: after indexing and `aa_rx_sg_cl_init`, a new
collision context allows exactly the pairs whose last call allowed them, whatever order
`aa_rx_sg_init` has put the frames in. -/
theorem C57_partial (os : List ColOp) (c : ColGraph) (hr : colRun colCreate os = some c)
    (hd : NoDelete os) (hf : Forest (contents (frameOps 0 os)))
    (he : contents (frameOps 0 os) "" = none) (hdirty : c.dirtyCol = some true)
    (g' : Graph Nat) (hi : index c.g = some (Status.ok, g')) :
    ∃ c1 s, colRun c [ColOp.init, ColOp.clInit] = some c1 ∧ c1.g = g' ∧ clContext c1 = some s ∧
      ∀ a b fa fb, contents (frameOps 0 os) a = some fa → contents (frameOps 0 os) b = some fb →
        clGet s (frameId g' a) (frameId g' b) =
          some (specAllowed colCreate (fun _ => false) os s(a, b)) := by
  have hrun := colRun_frames os colCreate c hr
  have hinv : ColInv c (specAllowed colCreate (fun _ => false) os) :=
    colInv_run os colCreate c _
      ⟨reach_create, by simp [colCreate, create], by simp [colCreate, create],
        by simp [colCreate, create], by simp⟩ hr hd.1 (by simp [colCreate, create, names]) hd.2
  set A := specAllowed colCreate (fun _ => false) os with hA
  have hne : ∀ f ∈ c.g.map, f.name ≠ "" := by
    intro f hm h0
    have := (mem_map_iff hrun f).1 hm
    rw [h0] at this
    rw [show (colCreate.next) = 0 from rfl, he] at this
    simp at this
  obtain ⟨s, hs, hm, hclean, -, -⟩ := reach_indexed hinv.reach hi (forest_acyclic hrun hf) hne
  set c0 : ColGraph := { c with g := g' } with hc0
  have hderef : ∀ f ∈ g'.map, deref c0 f.body = some f.name := by
    intro f hfm
    unfold deref
    have hex : ∃ f', c0.g.map.find? (fun x => x.body = f.body) = some f' := by
      rw [← Option.isSome_iff_exists, List.find?_isSome]
      exact ⟨f, hfm, by simp⟩
    obtain ⟨f', h1⟩ := hex
    rw [h1]
    have h2 := List.mem_of_find?_eq_some h1
    have h3 : f'.body = f.body := by simpa using List.find?_some h1
    rw [hc0] at h2
    simp only at h2
    rw [hm] at h2 hfm
    rw [hinv.inj f' h2 f hfm h3]
    rfl
  -- names of objects
  set nm : Nat → String := fun o => (deref c0 o).getD "" with hnm
  have hnmf : ∀ f ∈ g'.map, nm f.body = f.name := by
    intro f hfm; simp only [hnm, hderef f hfm, Option.getD_some]
  have hidx := allowedIdx_eq (c := c0) nm c.allowed (by
    intro p hp
    obtain ⟨f0, k0, f1, k1, rfl, -, -⟩ := (hinv.all p).1 hp
    rw [← hm] at k0 k1
    exact ⟨by rw [hderef f0 k0, hnmf f0 k0], by rw [hderef f1 k1, hnmf f1 k1]⟩)
  have hid : ∀ f ∈ g'.map, ∃ i : Nat, frameId g' f.name = i ∧ i < frameCount g' := by
    intro f hfm
    obtain ⟨i, e, h1, rfl, h3⟩ := hs.exists_entry hfm
    refine ⟨i, h3, ?_⟩
    rw [hs.count']
    exact (List.getElem?_eq_some_iff.1 h1).1
  set lN : List (Nat × Nat) := c.allowed.map (fun p =>
    ((frameId g' (nm p.1)).toNat, (frameId g' (nm p.2)).toNat)) with hlN
  have hmap : c.allowed.map (fun p => (frameId c0.g (nm p.1), frameId c0.g (nm p.2))) =
      lN.map (fun x => ((x.1 : Int), (x.2 : Int))) := by
    rw [hlN, List.map_map]
    apply List.map_congr_left
    intro p hp
    obtain ⟨f0, k0, f1, k1, rfl, -, -⟩ := (hinv.all p).1 hp
    rw [← hm] at k0 k1
    obtain ⟨i0, h0, -⟩ := hid f0 k0
    obtain ⟨i1, h1, -⟩ := hid f1 k1
    simp only [Function.comp, hnmf f0 k0, hnmf f1 k1, hc0, h0, h1, Int.toNat_natCast]
  have hlN_lt : ∀ x ∈ lN, x.1 < frameCount g' ∧ x.2 < frameCount g' := by
    intro x hx
    obtain ⟨p, hp, rfl⟩ := List.mem_map.1 hx
    obtain ⟨f0, k0, f1, k1, rfl, -, -⟩ := (hinv.all p).1 hp
    rw [← hm] at k0 k1
    obtain ⟨i0, h0, l0⟩ := hid f0 k0
    obtain ⟨i1, h1, l1⟩ := hid f1 k1
    simp only [hnmf f0 k0, hnmf f1 k1, h0, h1, Int.toNat_natCast]
    exact ⟨l0, l1⟩
  obtain ⟨S, e1, hrep⟩ := C56_copy_partial (frameCount g') lN hlN_lt _ _
    (clCreate_rep (frameCount g')) (by simp)
  refine ⟨{ c0 with idx := lN.map (fun x => ((x.1 : Int), (x.2 : Int))), dirtyCol := some false },
    S, ?_, rfl, ?_, ?_⟩
  · have h1 : colStep c ColOp.init = some c0 := by
      simp only [colStep, colInit, hi, Option.map_some, hc0]
    have h2 : clInit c0 = some { c0 with
        idx := lN.map (fun x => ((x.1 : Int), (x.2 : Int))), dirtyCol := some false } := by
      unfold clInit
      rw [show c0.dirtyCol = some true from hdirty]
      simp only
      rw [if_neg (by rw [show c0.g.dirty = g'.dirty from rfl, hclean]; simp),
        show c0.allowed = c.allowed from rfl, hidx, hmap]
      rfl
    have h1' : colInit c = some c0 := h1
    simp only [colRun, colStep, h1', Option.bind_some, h2]
  · unfold clContext
    simp only
    rw [if_neg (by rw [show c0.g.dirty = g'.dirty from rfl, hclean]; simp)]
    exact e1
  · intro a b fa fb ha hb
    obtain ⟨rfl, ka⟩ := contents_name hrun ha
    obtain ⟨rfl, kb⟩ := contents_name hrun hb
    rw [← hm] at ka kb
    obtain ⟨ia, ha1, ha2⟩ := hid fa ka
    obtain ⟨ib, hb1, hb2⟩ := hid fb kb
    rw [ha1, hb1, clGet_eq hrep, if_pos (And.intro ha2 hb2)]
    congr 1
    have hinj : ∀ f ∈ g'.map, ∀ f' ∈ g'.map, (frameId g' f.name).toNat =
        (frameId g' f'.name).toNat → f.name = f'.name := by
      intro f k f' k' hff
      obtain ⟨i, h1, -⟩ := hid f k
      obtain ⟨i', h1', -⟩ := hid f' k'
      refine hs.frameId_inj (List.mem_map_of_mem k) ?_
      rw [h1, h1'] at hff ⊢
      simpa using hff
    rw [Bool.eq_iff_iff, List.any_eq_true]
    constructor
    · rintro ⟨x, hx, hxe⟩
      obtain ⟨p, hp, rfl⟩ := List.mem_map.1 hx
      obtain ⟨f0, k0, f1, k1, rfl, -, hA1⟩ := (hinv.all p).1 hp
      rw [← hm] at k0 k1
      have hxe : s((frameId g' (nm f0.body)).toNat, (frameId g' (nm f1.body)).toNat) = s(ia, ib) := by
        simpa using hxe
      rw [hnmf f0 k0, hnmf f1 k1, ← Int.toNat_natCast ia, ← Int.toNat_natCast ib, ← ha1, ← hb1] at hxe
      rcases Sym2.eq_iff.1 hxe with ⟨q1, q2⟩ | ⟨q1, q2⟩
      · rw [← hinj f0 k0 fa ka q1, ← hinj f1 k1 fb kb q2]
        exact hA1
      · rw [← hinj f0 k0 fb kb q1, ← hinj f1 k1 fa ka q2, Sym2.eq_swap]
        exact hA1
    · intro hab
      rw [hm] at ka kb
      rcases le_total fa.name fb.name with hle | hle
      · have hp := (hinv.all (fa.body, fb.body)).2 ⟨fa, ka, fb, kb, rfl, hle, hab⟩
        refine ⟨_, List.mem_map_of_mem hp, ?_⟩
        rw [← hm] at ka kb
        simp [hnmf fa ka, hnmf fb kb, ha1, hb1]
      · have hp := (hinv.all (fb.body, fa.body)).2 ⟨fb, kb, fa, ka, rfl, hle, by
          rw [Sym2.eq_swap]; exact hab⟩
        refine ⟨_, List.mem_map_of_mem hp, ?_⟩
        rw [← hm] at ka kb
        simp [hnmf fa ka, hnmf fb kb, ha1, hb1, Sym2.eq_swap]

/-! ## Concrete cases and disagreements -/

/-- Two frames, added in an order different from the index order, allowed by number and by name,
with a pair that is disallowed again with its names exchanged. -/
def allowOps : List ColOp :=
  [ColOp.add "b" "" Kind.fixed "", ColOp.add "a" "b" Kind.fixed "", ColOp.init,
   ColOp.allow 1 0 true, ColOp.add "0" "" Kind.fixed "", ColOp.allowName "0" "a" true,
   ColOp.allowName "a" "0" false]

/-- The hypotheses of `C57_partial` are met and the pair `a`, `b` (numbers 1 and 2 at the time of
the call, 2 and 1 afterwards) is allowed, the pair `0`, `a` is not. -/
example : NoDelete allowOps := ⟨by decide, by
  intro n h; simp [allowOps] at h⟩

example : Forest (contents (frameOps 0 allowOps)) ∧ contents (frameOps 0 allowOps) "" = none := by
  have key : ∀ p n, IsParent (contents (frameOps 0 allowOps)) p n → n = "a" ∧ p = "b" := by
    rintro p n ⟨h1, f, h2, rfl⟩
    simp only [contents, allowOps, frameOps, List.foldl_cons, List.foldl_nil] at h2
    split_ifs at h2 with a1 a2 a3
    all_goals
      simp only [Option.some.injEq] at h2
      try subst h2
      simp_all
  have not_trans : ∀ x y, Relation.TransGen (IsParent (contents (frameOps 0 allowOps))) x y →
      x = "b" ∧ y = "a" := by
    intro x y hxy
    induction hxy with
    | single h => exact ⟨(key _ _ h).2, (key _ _ h).1⟩
    | tail _ h ih => exact ⟨ih.1, (key _ _ h).1⟩
  refine ⟨fun n h => ?_, by decide +kernel⟩
  obtain ⟨rfl, h2⟩ := not_trans n n h
  simp at h2

example : (colRun colCreate allowOps).map (fun c => c.dirtyCol) = some (some true) := by
  decide +kernel

example : ((colRun colCreate (allowOps ++ [ColOp.init, ColOp.clInit])).bind (fun c =>
    (clContext c).map (fun s => [frameId c.g "0", frameId c.g "a", frameId c.g "b"].map (fun i =>
      clGet s i (frameId c.g "a"))))) = some [some false, some false, some true] := by decide +kernel

/-- C57 fails when a frame is added after `aa_rx_sg_cl_init`: `aa_rx_sg_init` renumbers the frames
but does not mark the collision data dirty, so `aa_rx_sg_cl_init` does nothing.  Here `a`, `b` is
allowed; after adding `A`, the context allows the pair `A`, `a` instead. -/
theorem C57_violates_reindex :
    ((colRun colCreate [ColOp.add "a" "" Kind.fixed "", ColOp.add "b" "" Kind.fixed "", ColOp.init,
      ColOp.allowName "a" "b" true, ColOp.clInit, ColOp.add "A" "" Kind.fixed "", ColOp.init,
      ColOp.clInit]).bind (fun c => (clContext c).map (fun s =>
        (clGet s (frameId c.g "a") (frameId c.g "b"),
         clGet s (frameId c.g "A") (frameId c.g "a"))))) = some (some false, some true) := by
  decide +kernel

/-- C57 fails when a frame with an allowed pair is replaced: the set keeps a pointer to the name of
the deleted frame, which `aa_rx_sg_cl_init` reads. -/
theorem C57_violates_replace :
    (colRun colCreate [ColOp.add "a" "" Kind.fixed "", ColOp.add "b" "" Kind.fixed "", ColOp.init,
      ColOp.allowName "a" "b" true, ColOp.add "b" "a" Kind.fixed "", ColOp.init]).isSome = true ∧
    colRun colCreate [ColOp.add "a" "" Kind.fixed "", ColOp.add "b" "" Kind.fixed "", ColOp.init,
      ColOp.allowName "a" "b" true, ColOp.add "b" "a" Kind.fixed "", ColOp.init,
      ColOp.clInit] = none := by decide +kernel

/-- C57 fails when a frame with an allowed pair is removed, for the same reason. -/
theorem C57_violates_remove :
    (colRun colCreate [ColOp.add "a" "" Kind.fixed "", ColOp.add "b" "" Kind.fixed "", ColOp.init,
      ColOp.allowName "a" "b" true, ColOp.rm "b", ColOp.init]).isSome = true ∧
    colRun colCreate [ColOp.add "a" "" Kind.fixed "", ColOp.add "b" "" Kind.fixed "", ColOp.init,
      ColOp.allowName "a" "b" true, ColOp.rm "b", ColOp.init, ColOp.clInit] = none := by
  decide +kernel

/-- A collision with the root frame cannot be allowed: the frame map has no entry for it. -/
theorem C57_violates_root (c : ColGraph) (h : find c.g.map "" = none) (a : String) (x : Bool) :
    allowName c "" a x = none := by
  have h0 : namePtr c "" = none := by rw [namePtr, h]; rfl
  unfold allowName
  dsimp only
  by_cases hlt : "" < a
  · rw [if_pos hlt]; simp only [h0]
  · rw [if_neg hlt]; simp only [h0]; cases namePtr c a <;> rfl

/-- `dirty_collision` is not initialized by the constructor: `aa_rx_sg_cl_init` on a graph without
geometry and allowed pairs reads an indeterminate value. -/
theorem C57_violates_uninit :
    colRun colCreate [ColOp.add "a" "" Kind.fixed "", ColOp.init, ColOp.clInit] = none := by
  decide +kernel

end Verif.Sg
