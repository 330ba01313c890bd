import Verif.Model.FkObj
import Verif.Prop.SgFk
import Verif.Prop.Rigid

/-!
# C146: objects of forward kinematics

Full statement: after `aa_rx_fk_all` an object `struct aa_rx_fk` holds the poses of all frames at that
configuration until the next call that writes to the same object. `aa_rx_fk_get_abs_qutr` gives the product
of the joints along the path from the root, `aa_rx_fk_get_rel_qutr` the pose of one frame in another.
`aa_rx_fk_set_rel` changes the pose of the one frame, so that its pose in its parent is the given one.
`aa_rx_fk_cpy` makes the target equal to the source. An object can be used as long as its scene graph lives,
also after frames were added to the scene graph; an id that is not of a frame is refused.

The code violates the last sentence.
-/

namespace Verif.FkObj

open Verif.Tf Verif.Sg

/-- The frames of `os` were added and the scene graph was indexed without an error; the parents form a forest. -/
structure Scene (os : List (Op Body)) (g : Graph Body) (n : Nat) : Prop where
  hinit : ∃ g0, Sg.run create os = some g0 ∧ index g0 = some (Status.ok, g)
  hforest : Forest (contents os)
  hnamed : contents os "" = none
  hclean : g.dirty = false
  hconfigs : configCount g = some n

/-! ## Histories -/

theorem run_append (s : St) (a b : List Call) : run s (a ++ b) =
    match run s a with
    | .ok s => run s b
    | .abort => .abort
    | .ub => .ub := by
  induction a generalizing s with
  | nil => rfl
  | cons c a ih =>
    simp only [List.cons_append, run]
    cases step s c with
    | ok s' => exact ih s'
    | abort => rfl
    | ub => rfl

theorem run_sg (s : St) (os : List (Op Body)) : run s (os.map .sg) =
    match Sg.run s.g os with
    | some g => .ok { s with g := g }
    | none => .ub := by
  induction os generalizing s with
  | nil => rfl
  | cons o os ih =>
    simp only [List.map_cons, run, step, Sg.run]
    cases Sg.step s.g o with
    | none => rfl
    | some g' => exact ih { s with g := g' }

/-- The call does not touch object `k`, nor the scene graph. -/
def Quiet (k : Nat) : Call → Prop
  | .sg _ => False
  | .make j _ => j ≠ k
  | .all j _ => j ≠ k
  | .setRel j _ _ => j ≠ k
  | .cpy d _ => d ≠ k
  | .destroy j => j ≠ k

theorem put_other {s : St} {j k : Nat} (h : j ≠ k) (o : Option Fk) : (put s j o).objs k = s.objs k :=
  if_neg (fun e => h e.symm)

theorem step_quiet {s s' : St} {k : Nat} {c : Call} (hq : Quiet k c) (h : step s c = .ok s') :
    s'.g = s.g ∧ s'.objs k = s.objs k := by
  have aux : ∀ (j : Nat) (o : Option Fk), j ≠ k → Out.ok (put s j o) = Out.ok s' →
      s'.g = s.g ∧ s'.objs k = s.objs k := by
    intro j o hj e
    cases e
    exact ⟨rfl, put_other hj o⟩
  have auxw : ∀ (j : Nat) (fk : Fk) (id : Int) (E : Qutr), j ≠ k → wcol s j fk id E = .ok s' →
      s'.g = s.g ∧ s'.objs k = s.objs k := by
    intro j fk id E hj e
    unfold wcol at e
    split at e
    · cases e
    · exact aux _ _ hj e
  cases c with
  | sg o => exact absurd hq (by simp [Quiet])
  | make j b => exact aux j _ hq h
  | all j q =>
    simp only [step, all] at h
    split at h
    · cases h
    · split at h
      · cases h
      · split at h
        · cases h
        · split at h
          · cases h
          · split at h
            · cases h
            · split at h
              · cases h
              · exact aux j _ hq h
  | setRel j id E =>
    simp only [step, setRel] at h
    split at h
    · cases h
    · split at h
      · cases h
      · split at h
        · cases h
        · split at h
          · exact auxw j _ _ _ hq h
          · split at h
            · exact auxw j _ _ _ hq h
            · cases h
            · cases h
  | cpy d f =>
    simp only [step, cpy] at h
    split at h
    · split at h
      · cases h
      · exact aux d _ hq h
    · cases h
  | destroy j =>
    simp only [step, destroy] at h
    split at h
    · cases h
    · split at h
      · exact aux j _ hq h
      · cases h

theorem run_quiet {k : Nat} (cs : List Call) {s s' : St} (hq : ∀ c ∈ cs, Quiet k c) (h : run s cs = .ok s') :
    s'.g = s.g ∧ s'.objs k = s.objs k := by
  induction cs generalizing s with
  | nil => cases h; exact ⟨rfl, rfl⟩
  | cons c cs ih =>
    simp only [run] at h
    cases e : step s c with
    | ok s1 =>
      rw [e] at h
      obtain ⟨a1, a2⟩ := step_quiet (hq c (List.mem_cons_self ..)) e
      obtain ⟨b1, b2⟩ := ih (fun c hc => hq c (List.mem_cons_of_mem _ hc)) h
      exact ⟨b1.trans a1, b2.trans a2⟩
    | abort => rw [e] at h; cases h
    | ub => rw [e] at h; cases h

/-- **C146 (isolation).** What an object says does not depend on what is done with others. -/
theorem C146_isolated (k : Nat) (cs : List Call) (s s' : St) (hq : ∀ c ∈ cs, Quiet k c) (h : run s cs = .ok s')
    (i j : Int) : getAbs s' k i = getAbs s k i ∧ getRel s' k i j = getRel s k i j := by
  obtain ⟨h1, h2⟩ := run_quiet cs hq h
  simp only [getAbs, getRel, h1, h2, and_self]

/-! ## The poses -/

theorem ident_cmul (E : Qutr) : qutrCmul qutrident E = E := by
  have : qutrConj qutrident = qutrident := by
    ext <;> simp [qutrConj, qutrident, qident, qconj, qrot, vneg]
  rw [qutrCmul, this, qutr_one_mul]

theorem cmul_ident (E : Qutr) : qutrCmul E qutrident = qutrConj E := by
  unfold qutrCmul
  ext <;> simp [qutrMul, qutrTf, qutrident, qident, qmul]

theorem col_fill {fk : Fk} {A : List Qutr} {i : Nat} {E : Qutr} (h : A[i]? = some E) :
    col (fill fk A) (i : Int) = .ok E := by
  have hi : i < A.length := (List.getElem?_eq_some_iff.1 h).1
  unfold col fill
  rw [if_neg (by omega), Int.toNat_natCast]
  simp only
  rw [List.getElem?_append_left (by simpa using hi), List.getElem?_map, h]
  rfl

/-- **C146 (poses).** After `aa_rx_fk_all`, and any calls on other objects: the poses of all frames, absolute and
relative to each other and to the root. -/
theorem C146_poses_partial (os : List (Op Body)) (g : Graph Body) (n : Nat) (hs : Scene os g n) (s s1 s2 : St)
    (hg : s.g = g) (k : Nat) (q : List ℝ) (h1 : step s (.all k q) = .ok s1) (cs : List Call)
    (hq : ∀ c ∈ cs, Quiet k c) (h2 : run s1 cs = .ok s2) :
    ∀ a f, contents os a = some f → ∃ fa, IsPath (contents os) a fa ∧
      getAbs s2 k (frameId g a) = .ok (pathTf g (fun i => q.getD i 0) fa) ∧
      getRel s2 k frameRoot (frameId g a) = .ok (pathTf g (fun i => q.getD i 0) fa) ∧
      getRel s2 k (frameId g a) frameRoot = .ok (qutrConj (pathTf g (fun i => q.getD i 0) fa)) ∧
      ∀ b f', contents os b = some f' → ∃ fb, IsPath (contents os) b fb ∧
        getRel s2 k (frameId g a) (frameId g b) =
          .ok (qutrCmul (pathTf g (fun i => q.getD i 0) fa) (pathTf g (fun i => q.getD i 0) fb)) := by
  obtain ⟨g0, hr, hi⟩ := hs.hinit
  obtain ⟨-, A, hA, hAl, hP⟩ := C50_fk_partial os g0 g hr hs.hforest hs.hnamed hi (fun i => q.getD i 0)
  have hC := (C49_order_partial os g0 g hr hs.hforest hs.hnamed hi).1
  subst hg
  have hobj : ∃ fk, s1.objs k = some (fill fk A) ∧ s1.g = s.g := by
    simp only [step, all] at h1
    split at h1
    · cases h1
    · rename_i fk _
      split at h1
      · cases h1
      · split at h1
        · cases h1
        · split at h1
          · cases h1
          · split at h1
            · cases h1
            · simp only [hA] at h1
              cases h1
              exact ⟨fk, if_pos rfl, rfl⟩
  obtain ⟨fk, e1, e2⟩ := hobj
  obtain ⟨d1, d2⟩ := run_quiet cs hq h2
  have hcol : ∀ a f, contents os a = some f → ∃ fa, IsPath (contents os) a fa ∧
      col (fill fk A) (frameId s.g a) = .ok (pathTf s.g (fun i => q.getD i 0) fa) ∧
      frameId s.g a ≠ frameRoot ∧ ¬ (frameId s.g a < 0 ∨ (frameCount s.g : Int) < frameId s.g a) := by
    intro a f ha
    obtain ⟨fa, p1, p2⟩ := hP a f ha
    obtain ⟨c1, c2, -⟩ := hC a f ha
    refine ⟨fa, p1, ?_, ?_, ?_⟩
    · have := col_fill (fk := fk) p2
      rwa [Int.toNat_of_nonneg c1] at this
    · unfold frameRoot; omega
    · omega
  intro a f ha
  obtain ⟨fa, p1, p2, p3, p4⟩ := hcol a f ha
  have hroot : colRoot (fill fk A) frameRoot = .ok qutrident := if_pos rfl
  have hca : colRoot (fill fk A) (frameId s.g a) = .ok (pathTf s.g (fun i => q.getD i 0) fa) := by
    unfold colRoot; rw [if_neg p3, p2]
  refine ⟨fa, p1, ?_, ?_, ?_, fun b f' hb => ?_⟩
  · simp only [getAbs, d2, e1, d1, e2]
    rw [if_neg p4, p2]
  · simp only [getRel, d2, e1, hroot, hca, ident_cmul]
  · simp only [getRel, d2, e1, hroot, hca, cmul_ident]
  · obtain ⟨fb, r1, r2, r3, -⟩ := hcol b f' hb
    have hcb : colRoot (fill fk A) (frameId s.g b) = .ok (pathTf s.g (fun i => q.getD i 0) fb) := by
      unfold colRoot; rw [if_neg r3, r2]
    exact ⟨fb, r1, by simp only [getRel, d2, e1, hca, hcb]⟩

/-! ## Setting a relative pose, copying -/

theorem cmul_mul {P : Qutr} (E : Qutr) (hP : P.Valid) : qutrCmul P (qutrMul P E) = E := by
  rw [qutrCmul, ← (C27_qutr (qutrConj P) P E (qutrConj_valid hP) hP).1, (C27_qutr P P P hP hP).2.2.2.2.1,
    qutr_one_mul]

theorem wcol_spec {s s' : St} {k : Nat} {fk : Fk} {id : Int} {E : Qutr} (h : wcol s k fk id E = .ok s')  :
    s'.g = s.g ∧ ∃ fk', s'.objs k = some fk' ∧ col fk' id = .ok E ∧ ∀ j, j ≠ id → col fk' j = col fk j := by
  unfold wcol at h
  split at h
  · cases h
  · rename_i hr
    rw [not_or, not_lt, not_le] at hr
    cases h
    refine ⟨rfl, _, if_pos rfl, ?_, fun j hj => ?_⟩
    · unfold col
      rw [if_neg (by omega)]
      simp only
      rw [List.getElem?_set_self (by omega)]
      rfl
    · unfold col
      by_cases h0 : j < 0
      · rw [if_pos h0, if_pos h0]
      · rw [if_neg h0, if_neg h0]
        simp only
        rw [List.getElem?_set_ne (by omega)]

/-- **C146 (set_rel).** The pose of the frame in its parent is the one given (whatever the parent, the root too),
and no other frame moves. -/
theorem C146_set_rel_partial (os : List (Op Body)) (g : Graph Body) (n : Nat) (hs : Scene os g n) (s s' : St)
    (hg : s.g = g) (k : Nat) (a : String) (f : Frame Body) (ha : contents os a = some f) (E : Qutr)
    (h : step s (.setRel k (frameId g a) E) = .ok s')
    (hv : ∀ P, getAbs s k (frameId g f.parent) = .ok P → P.Valid) :
    getRel s' k (frameId g f.parent) (frameId g a) = .ok E ∧
    ∀ j, j ≠ frameId g a → getAbs s' k j = getAbs s k j := by
  obtain ⟨g0, hr, hi⟩ := hs.hinit
  obtain ⟨c1, c2, -, -, c5, c6, c7, c8⟩ := (C49_order_partial os g0 g hr hs.hforest hs.hnamed hi).1 a f ha
  subst hg
  simp only [step, setRel] at h
  split at h
  · cases h
  · rename_i fk hfk
    rw [hs.hclean] at h
    simp only [Bool.false_eq_true, if_false, c5] at h
    have hid : frameId s.g a ≠ frameRoot := by unfold frameRoot; omega
    split at h
    · rename_i hroot
      obtain ⟨w1, fk', w2, w3, w4⟩ := wcol_spec h
      constructor
      · simp only [getRel, w2, colRoot]
        rw [if_pos hroot, if_neg hid, w3]
        simp only [ident_cmul]
      · intro j hj
        simp only [getAbs, w1, w2, hfk, w4 j hj]
    · rename_i hroot
      have h0 : 0 ≤ frameId s.g f.parent := by
        by_cases hpe : f.parent = ""
        · exact absurd (c7 hpe) hroot
        · exact c8 hpe
      cases hc : col fk (frameId s.g f.parent) with
      | abort => rw [hc] at h; cases h
      | ub => rw [hc] at h; cases h
      | ok P =>
        rw [hc] at h
        simp only at h
        obtain ⟨w1, fk', w2, w3, w4⟩ := wcol_spec h
        have hP : P.Valid := by
          apply hv
          simp only [getAbs, hfk]
          rw [if_neg (by omega), hc]
        constructor
        · simp only [getRel, w2, colRoot]
          rw [if_neg hroot, if_neg hid, w3, w4 _ (by omega), hc]
          simp only [cmul_mul E hP]
        · intro j hj
          simp only [getAbs, w1, w2, hfk, w4 j hj]

/-- **C146 (copying).** The target answers as the source does, for every frame; the source is unchanged. -/
theorem C146_copy_partial (os : List (Op Body)) (g : Graph Body) (n : Nat) (hs : Scene os g n) (s s' : St)
    (hg : s.g = g) (d f : Nat) (h : step s (.cpy d f) = .ok s') (a b : String) (fa fb : Frame Body)
    (ha : contents os a = some fa) (hb : contents os b = some fb) :
    getAbs s' d (frameId g a) = getAbs s f (frameId g a) ∧
    getRel s' d (frameId g a) (frameId g b) = getRel s f (frameId g a) (frameId g b) ∧
    getAbs s' f (frameId g a) = getAbs s f (frameId g a) := by
  obtain ⟨g0, hr, hi⟩ := hs.hinit
  have hC := (C49_order_partial os g0 g hr hs.hforest hs.hnamed hi).1
  subst hg
  simp only [step, cpy] at h
  split at h
  · rename_i dk fk hd hf
    split at h
    · cases h
    · rename_i hne
      rw [not_or, not_or, not_lt, not_lt] at hne
      cases h
      have hcol : ∀ x fx, contents os x = some fx →
          col { dk with cols := fk.cols.take (frameCount s.g) ++ dk.cols.drop (frameCount s.g) } (frameId s.g x) =
            col fk (frameId s.g x) := by
        intro x fx hx
        obtain ⟨x1, x2, -⟩ := hC x fx hx
        unfold col
        rw [if_neg (by omega), if_neg (by omega)]
        simp only
        rw [List.getElem?_append_left (by rw [List.length_take]; omega), List.getElem?_take_of_lt (by omega)]
      generalize hX : (fk.cols.take (frameCount s.g) ++ dk.cols.drop (frameCount s.g)) = X at hcol ⊢
      have hod : (put s d (some { dk with cols := X })).objs d = some { dk with cols := X } := if_pos rfl
      have hof := put_other (s := s) hne.1 (some { dk with cols := X })
      refine ⟨?_, ?_, ?_⟩
      · simp only [getAbs, hod, hf, hcol a fa ha]
        rfl
      · simp only [getRel, hod, hf, colRoot, hcol a fa ha, hcol b fb hb]
      · simp only [getAbs, hof, hf]
        rfl
  · cases h

/-! ## Safety -/

/-- What the caller knows: for each variable whether it points to an object on the heap, and whether poses were
put into it. -/
abbrev Known := Nat → Option (Bool × Bool)

/-- What the caller has to respect: frames (by id) of the scene graph, configurations of the right length, objects
that exist. -/
def Allowed (count n : Nat) (w : Known) : Call → Prop
  | .sg _ => False
  | .make _ _ => True
  | .all k q => (w k).isSome ∧ q.length = n
  | .setRel k id _ => (∃ h, w k = some (h, true)) ∧ 0 ≤ id ∧ id < (count : Int)
  | .cpy d f => d ≠ f ∧ (w d).isSome ∧ (w f).isSome
  | .destroy k => ∃ b, w k = some (true, b)

/-- What the caller knows after a call. -/
def learn (w : Known) : Call → Known
  | .sg _ => w
  | .make k h => fun j => if j = k then some (h, false) else w j
  | .all k _ => fun j => if j = k then (w k).map (fun x => (x.1, true)) else w j
  | .setRel _ _ _ => w
  | .cpy d f => fun j => if j = d then (w d).map (fun x => (x.1, ((w f).map (·.2)).getD false)) else w j
  | .destroy k => fun j => if j = k then none else w j

/-- Every call of the history is allowed. -/
def AllowedAll (count n : Nat) : Known → List Call → Prop
  | _, [] => True
  | w, c :: cs => Allowed count n w c ∧ AllowedAll count n (learn w c) cs

/-- What the objects are like, as far as is known. -/
def Inv (g : Graph Body) (s : St) (w : Known) : Prop :=
  s.g = g ∧ ∀ k, match w k with
    | none => True
    | some (h, b) => ∃ fk, s.objs k = some fk ∧ fk.inHeap = h ∧ fk.cols.length = frameCount g ∧
      (b = true → ∀ c ∈ fk.cols, c.isSome = true)

theorem Inv.obj {g : Graph Body} {s : St} {w : Known} (hI : Inv g s w) {k : Nat} {h b : Bool} (hk : w k = some (h, b)) :
    ∃ fk, s.objs k = some fk ∧ fk.inHeap = h ∧ fk.cols.length = frameCount g ∧
      (b = true → ∀ c ∈ fk.cols, c.isSome = true) := by
  have := hI.2 k
  rw [hk] at this
  exact this

theorem Inv.put {g : Graph Body} {s : St} {w w' : Known} (hI : Inv g s w) {k : Nat} {o : Option Fk}
    (ho : ∀ j, j ≠ k → w' j = w j)
    (hk : ∀ h b, w' k = some (h, b) → ∃ fk, o = some fk ∧ fk.inHeap = h ∧ fk.cols.length = frameCount g ∧
      (b = true → ∀ c ∈ fk.cols, c.isSome = true)) : Inv g (put s k o) w' := by
  refine ⟨hI.1, fun j => ?_⟩
  by_cases hj : j = k
  · subst hj
    cases hw : w' j with
    | none => trivial
    | some x =>
      obtain ⟨fk, h1, h2⟩ := hk x.1 x.2 hw
      exact ⟨fk, (if_pos rfl).trans h1, h2⟩
  · have := hI.2 j
    rw [ho j hj]
    rw [put_other (fun e => hj e.symm)]
    exact this

theorem col_some {fk : Fk} {n : Nat} (hl : fk.cols.length = n) (hb : ∀ c ∈ fk.cols, c.isSome = true) {i : Int}
    (h0 : 0 ≤ i) (h1 : i < n) : ∃ E, col fk i = .ok E := by
  have hi : i.toNat < fk.cols.length := by omega
  have := hb _ (List.getElem_mem hi)
  obtain ⟨E, hE⟩ := Option.isSome_iff_exists.1 this
  refine ⟨E, ?_⟩
  unfold col
  rw [if_neg (by omega), List.getElem?_eq_getElem hi, hE]
  rfl

theorem step_safe {os : List (Op Body)} {g : Graph Body} {n : Nat} (hs : Scene os g n) {s : St} {w : Known} {c : Call}
    (hI : Inv g s w) (ha : Allowed (frameCount g) n w c) : ∃ s', step s c = .ok s' ∧ Inv g s' (learn w c) := by
  obtain ⟨g0, hr, hi⟩ := hs.hinit
  have hC := C49_order_partial os g0 g hr hs.hforest hs.hnamed hi
  cases c with
  | sg o => exact absurd ha (by simp [Allowed])
  | make k h =>
    refine ⟨_, rfl, hI.put (fun j hj => if_neg hj) (fun h' b hw => ?_)⟩
    simp only [learn, if_true, Option.some.injEq, Prod.mk.injEq] at hw
    obtain ⟨rfl, rfl⟩ := hw
    exact ⟨_, rfl, rfl, by rw [List.length_replicate, hI.1], fun e => absurd e (by simp)⟩
  | all k q =>
    obtain ⟨hsome, hq⟩ := ha
    obtain ⟨⟨h, b⟩, hw⟩ := Option.isSome_iff_exists.1 hsome
    obtain ⟨fk, f1, f2, f3, -⟩ := hI.obj hw
    obtain ⟨-, A, hA, hAl, -⟩ := C50_fk_partial os g0 g hr hs.hforest hs.hnamed hi (fun i => q.getD i 0)
    refine ⟨put s k (some (fill fk A)), ?_, hI.put (fun j hj => if_neg hj) (fun h' b' hw' => ?_)⟩
    · simp only [step, all, f1, hI.1, hs.hclean, hs.hconfigs, hA]
      rw [if_neg (by simp), if_neg (not_not.2 hq.symm), if_neg (by omega)]
    · simp only [learn, if_true, hw, Option.map_some, Option.some.injEq, Prod.mk.injEq] at hw'
      obtain ⟨rfl, rfl⟩ := hw'
      have hd : fk.cols.drop A.length = [] := List.drop_of_length_le (by omega)
      refine ⟨_, rfl, f2, by rw [fill]; simp only; rw [hd, List.append_nil, List.length_map, hAl], fun _ c hc => ?_⟩
      simp only [fill, hd, List.append_nil, List.mem_map] at hc
      obtain ⟨x, -, rfl⟩ := hc
      rfl
  | setRel k id E =>
    obtain ⟨⟨h, hw⟩, h0, hlt⟩ := ha
    obtain ⟨fk, f1, f2, f3, f4⟩ := hI.obj hw
    have hwc : ∀ X, ∃ s', wcol s k fk id X = .ok s' ∧ Inv g s' (learn w (.setRel k id E)) := by
      intro X
      refine ⟨_, if_neg (by omega), hI.put (fun j _ => rfl) (fun h' b hw' => ?_)⟩
      simp only [learn, hw, Option.some.injEq, Prod.mk.injEq] at hw'
      obtain ⟨rfl, rfl⟩ := hw'
      refine ⟨_, rfl, f2, by simp [f3], fun _ c hc => ?_⟩
      rcases List.mem_or_eq_of_mem_set hc with hc | rfl
      · exact f4 rfl c hc
      · rfl
    obtain ⟨a, f, c1, -, c3⟩ := hC.2 id.toNat (by omega)
    rw [Int.toNat_of_nonneg h0] at c3
    obtain ⟨-, -, -, -, d5, d6, d7, d8⟩ := hC.1 a f c1
    rw [c3] at d5 d6
    simp only [step, setRel, f1, hI.1, hs.hclean, d5]
    rw [if_neg (by simp)]
    by_cases hroot : frameId g f.parent = frameRoot
    · rw [if_pos hroot]
      exact hwc E
    · rw [if_neg hroot]
      have hp0 : 0 ≤ frameId g f.parent := by
        by_cases hpe : f.parent = ""
        · exact absurd (d7 hpe) hroot
        · exact d8 hpe
      obtain ⟨P, hP⟩ := col_some f3 (f4 rfl) hp0 (by omega)
      simp only [hP]
      exact hwc _
  | cpy d f =>
    obtain ⟨hne, h1, h2⟩ := ha
    obtain ⟨⟨hd, bd⟩, hwd⟩ := Option.isSome_iff_exists.1 h1
    obtain ⟨⟨hf, bf⟩, hwf⟩ := Option.isSome_iff_exists.1 h2
    obtain ⟨dk, d1, d2, d3, -⟩ := hI.obj hwd
    obtain ⟨fk, f1, f2, f3, f4⟩ := hI.obj hwf
    refine ⟨put s d (some { dk with cols := fk.cols.take (frameCount s.g) ++ dk.cols.drop (frameCount s.g) }), ?_,
      hI.put (fun j hj => if_neg hj) (fun h' b' hw' => ?_)⟩
    · simp only [step, cpy, d1, f1, hI.1]
      rw [if_neg (by omega)]
    · simp only [learn, if_true, hwd, hwf, Option.map_some, Option.some.injEq, Prod.mk.injEq, Option.getD_some] at hw'
      obtain ⟨rfl, rfl⟩ := hw'
      have e1 : dk.cols.drop (frameCount s.g) = [] := List.drop_of_length_le (by rw [hI.1]; omega)
      have e2 : fk.cols.take (frameCount s.g) = fk.cols := List.take_of_length_le (by rw [hI.1]; omega)
      refine ⟨_, rfl, d2, by simp [e1, e2, f3], fun hb c hc => ?_⟩
      simp only [e1, e2, List.append_nil] at hc
      exact f4 hb c hc
  | destroy k =>
    obtain ⟨b, hw⟩ := ha
    obtain ⟨fk, f1, f2, -⟩ := hI.obj hw
    refine ⟨put s k none, ?_, hI.put (fun j hj => if_neg hj) (fun h' b' hw' => ?_)⟩
    · simp only [step, destroy, f1, f2, if_true]
    · simp [learn] at hw'

/-- What the caller knows after a history. -/
def learnAll (w : Known) (cs : List Call) : Known := cs.foldl learn w

/-- **C146 (safety).** As long as the scene graph is not changed, every history of allowed calls runs, without abort
or undefined behaviour, and every object that poses were put into can be asked for every frame. -/
theorem C146_safe_partial (os : List (Op Body)) (g : Graph Body) (n : Nat) (hs : Scene os g n) (objs : Nat → Option Fk)
    (cs : List Call) (ha : AllowedAll (frameCount g) n (fun _ => none) cs) :
    ∃ s, run ⟨g, objs⟩ cs = .ok s ∧ ∀ k h, learnAll (fun _ => none) cs k = some (h, true) →
      ∀ a f, contents os a = some f → ∃ E, getAbs s k (frameId g a) = .ok E := by
  have key : ∀ (cs : List Call) (s : St) (w : Known), Inv g s w → AllowedAll (frameCount g) n w cs →
      ∃ s', run s cs = .ok s' ∧ Inv g s' (learnAll w cs) := by
    intro cs
    induction cs with
    | nil => intro s w hI _; exact ⟨s, rfl, hI⟩
    | cons c cs ih =>
      intro s w hI h
      obtain ⟨s1, e1, i1⟩ := step_safe hs hI h.1
      obtain ⟨s2, e2, i2⟩ := ih s1 _ i1 h.2
      exact ⟨s2, by simp only [run, e1, e2], i2⟩
  obtain ⟨s, e, hI⟩ := key cs ⟨g, objs⟩ (fun _ => none) ⟨rfl, fun _ => trivial⟩ ha
  refine ⟨s, e, fun k h hk a f hf => ?_⟩
  obtain ⟨g0, hr, hi⟩ := hs.hinit
  obtain ⟨c1, c2, -⟩ := (C49_order_partial os g0 g hr hs.hforest hs.hnamed hi).1 a f hf
  obtain ⟨fk, f1, -, f3, f4⟩ := hI.obj hk
  obtain ⟨E, hE⟩ := col_some f3 (f4 rfl) c1 c2
  refine ⟨E, ?_⟩
  simp only [getAbs, f1, hI.1]
  rw [if_neg (by omega), hE]

/-! ## Violations -/

/-- VIOLATION. An object made before the frames were added (after `aa_rx_sg_create`) is written past its end by
`aa_rx_fk_all`, for every scene with a frame. -/
theorem C146_grown_violates (os : List (Op Body)) (g : Graph Body) (n : Nat) (hs : Scene os g n)
    (hpos : 0 < frameCount g) (k : Nat) (h : Bool) (q : List ℝ) (hq : q.length = n) :
    run ⟨create, fun _ => none⟩ (.make k h :: os.map .sg ++ [.sg .init, .all k q]) = .ub := by
  obtain ⟨g0, hr, hi⟩ := hs.hinit
  rw [List.cons_append, run]
  simp only [step, make]
  rw [run_append, run_sg]
  have e : (put (⟨create, fun _ => none⟩ : St) k (some ⟨List.replicate (frameCount (create : Graph Body)) none, h⟩)).g =
    create := rfl
  rw [e, hr]
  simp only [run, step, Sg.step, hi, Option.map_some, all, put, if_true, hs.hclean, hs.hconfigs]
  rw [if_neg (by simp), if_neg (not_not.2 hq.symm), if_pos ?_]
  rw [List.length_replicate]
  exact hpos

/-- VIOLATION. The id one past the last frame is not refused: it is read. -/
theorem C146_bound_violates (s : St) (k : Nat) (fk : Fk) (hk : s.objs k = some fk)
    (hl : fk.cols.length = frameCount s.g) : getAbs s k (frameCount s.g) = .ub := by
  simp only [getAbs, hk]
  rw [if_neg (by omega)]
  unfold col
  rw [if_neg (by omega), Int.toNat_natCast, List.getElem?_eq_none (by omega)]
  rfl

/-- VIOLATION. Nor does `aa_rx_fk_get_rel_qutr` refuse the id that `aa_rx_sg_frame_id` gives for a name which is no
frame. -/
theorem C146_none_violates (s : St) (k : Nat) (id : Int) : getRel s k frameNone id = .ub := by
  simp only [getRel]
  split
  · rfl
  · have : ∀ fk, colRoot fk frameNone = .ub := by
      intro fk
      unfold colRoot col frameNone frameRoot
      rw [if_neg (by omega), if_pos (by omega)]
    rw [this]

/-! ## A concrete case -/

theorem fk_scene : Scene fkOps fkGraph 3 := by
  obtain ⟨g, h1, h2, h3, h4⟩ := fkOps_ok
  have hi := fkGraph_index
  rw [h1] at hi
  exact ⟨⟨g, h1, hi⟩, h2, h3, rfl, rfl⟩

example (q q' : List ℝ) (hq : q.length = 3) (hq' : q'.length = 3) (E : Qutr) :
    ∃ s, run ⟨fkGraph, fun _ => none⟩ [.make 0 true, .make 1 false, .all 0 q, .cpy 1 0, .all 0 q', .setRel 1 1 E,
      .destroy 0] = .ok s := by
  obtain ⟨s, h, -⟩ := C146_safe_partial fkOps fkGraph 3 fk_scene (fun _ => none)
    [.make 0 true, .make 1 false, .all 0 q, .cpy 1 0, .all 0 q', .setRel 1 1 E, .destroy 0]
    (by simp [AllowedAll, Allowed, learn, hq, hq', frameCount, fkGraph])
  exact ⟨s, h⟩

example : run ⟨create, fun _ => none⟩ (.make 0 true :: fkOps.map .sg ++ [.sg .init, .all 0 [0, 0, 0]]) = .ub :=
  C146_grown_violates fkOps fkGraph 3 fk_scene (by simp [frameCount, fkGraph]) 0 true [0, 0, 0] rfl

end Verif.FkObj
