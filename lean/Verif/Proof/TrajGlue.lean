import Verif.Model.Traj
import Mathlib.Analysis.Calculus.Deriv.Basic
import Mathlib.Analysis.Calculus.Deriv.Prod
import Mathlib.Analysis.Calculus.Deriv.Pi
import Mathlib.Topology.ContinuousOn
import Mathlib.Tactic.Linarith

/-!
# Gluing curve pieces

A trajectory is evaluated by the first segment whose time interval contains the time.  Pieces on
consecutive intervals that agree where they meet form a continuous curve; with agreeing
derivatives the curve is continuously differentiable.
-/

namespace Verif.Ct

open Set

variable {n : Nat}

/-- A curve `g` with derivative `g'` on `[a,b]`. -/
structure Piece (n : Nat) where
  a : ℝ
  b : ℝ
  g : ℝ → Fin n → ℝ
  g' : ℝ → Fin n → ℝ

open Classical in
/-- The first piece whose interval contains `t`. -/
noncomputable def sel (ps : List (Piece n)) (t : ℝ) : Option (Piece n) :=
  ps.find? fun p => decide (p.a ≤ t ∧ t ≤ p.b)

/-- Value at `t` of a function attached to the selected piece. -/
noncomputable def pev (f : Piece n → ℝ → Fin n → ℝ) (ps : List (Piece n)) (t : ℝ) : Fin n → ℝ :=
  match sel ps t with
  | some p => f p t
  | none => 0

/-- Last time of a nonempty list of pieces. -/
def stop : Piece n → List (Piece n) → ℝ
  | p, [] => p.b
  | _, p' :: ps => stop p' ps

/-- Consecutive intervals. -/
def TChain : Piece n → List (Piece n) → Prop
  | p, [] => p.a ≤ p.b
  | p, p' :: ps => p.a ≤ p.b ∧ p'.a = p.b ∧ TChain p' ps

/-- Agreement of `f` where pieces meet, and a property of every piece. -/
def Joined (f : Piece n → ℝ → Fin n → ℝ) : Piece n → List (Piece n) → Prop
  | _, [] => True
  | p, p' :: ps => f p' p.b = f p p.b ∧ Joined f p' ps

theorem TChain.le {p : Piece n} {ps : List (Piece n)} (h : TChain p ps) : p.a ≤ p.b := by
  cases ps with
  | nil => exact h
  | cons p' ps => exact h.1

theorem TChain.le_stop {p : Piece n} {ps : List (Piece n)} (h : TChain p ps) :
    p.b ≤ stop p ps := by
  induction ps generalizing p with
  | nil => exact le_refl _
  | cons p' ps ih =>
    have := ih h.2.2
    have := h.2.2.le
    have := h.2.1
    simp only [stop]; linarith

theorem sel_cons_pos (p : Piece n) (ps : List (Piece n)) {t : ℝ} (h : p.a ≤ t ∧ t ≤ p.b) :
    sel (p :: ps) t = some p := by
  unfold sel
  rw [List.find?_cons_of_pos]
  simpa using h

theorem sel_cons_neg (p : Piece n) (ps : List (Piece n)) {t : ℝ} (h : ¬ (p.a ≤ t ∧ t ≤ p.b)) :
    sel (p :: ps) t = sel ps t := by
  unfold sel
  rw [List.find?_cons_of_neg]
  simpa using h

/-- Some piece contains `t` exactly for `t` between the ends. -/
theorem sel_isSome_iff {p : Piece n} {ps : List (Piece n)} (h : TChain p ps) (t : ℝ) :
    (∃ r, sel (p :: ps) t = some r) ↔ p.a ≤ t ∧ t ≤ stop p ps := by
  induction ps generalizing p with
  | nil =>
    by_cases ht : p.a ≤ t ∧ t ≤ p.b
    · exact ⟨fun _ => ht, fun _ => ⟨p, sel_cons_pos _ _ ht⟩⟩
    · rw [sel_cons_neg _ _ ht]
      exact ⟨fun ⟨r, hr⟩ => by simp [sel] at hr, fun h' => absurd h' ht⟩
  | cons p' ps ih =>
    by_cases ht : p.a ≤ t ∧ t ≤ p.b
    · have := h.le_stop
      exact ⟨fun _ => ⟨ht.1, le_trans ht.2 this⟩, fun _ => ⟨p, sel_cons_pos _ _ ht⟩⟩
    · rw [sel_cons_neg _ _ ht, ih h.2.2]
      have e := h.2.1
      have l := h.le
      simp only [stop]
      constructor
      · rintro ⟨h1, h2⟩; exact ⟨by linarith, h2⟩
      · rintro ⟨h1, h2⟩
        refine ⟨?_, h2⟩
        by_contra h3
        exact ht ⟨h1, by linarith⟩

theorem sel_mem {ps : List (Piece n)} {t : ℝ} {r : Piece n} (h : sel ps t = some r) :
    r ∈ ps ∧ r.a ≤ t ∧ t ≤ r.b := by
  refine ⟨List.mem_of_find?_eq_some h, ?_⟩
  have := List.find?_some h
  simpa using this

theorem pev_first (f : Piece n → ℝ → Fin n → ℝ) (p : Piece n) (ps : List (Piece n)) {t : ℝ}
    (h : p.a ≤ t ∧ t ≤ p.b) : pev f (p :: ps) t = f p t := by
  unfold pev; rw [sel_cons_pos _ _ h]

theorem pev_rest (f : Piece n → ℝ → Fin n → ℝ) {p p' : Piece n} {ps : List (Piece n)}
    (h : TChain p (p' :: ps)) (hj : f p' p.b = f p p.b) {t : ℝ} (ht : p.b ≤ t) :
    pev f (p :: p' :: ps) t = pev f (p' :: ps) t := by
  rcases eq_or_lt_of_le ht with rfl | ht
  · rw [pev_first f p _ ⟨h.le, le_refl _⟩,
      pev_first f p' _ ⟨le_of_eq h.2.1, h.2.1 ▸ h.2.2.le⟩, hj]
  · unfold pev
    rw [sel_cons_neg]
    rintro ⟨_, h2⟩; linarith

theorem pev_continuous (f : Piece n → ℝ → Fin n → ℝ) {p : Piece n} {ps : List (Piece n)}
    (h : TChain p ps) (hj : Joined f p ps) (hf : ∀ r ∈ p :: ps, Continuous (f r)) :
    ContinuousOn (pev f (p :: ps)) (Icc p.a (stop p ps)) := by
  induction ps generalizing p with
  | nil =>
    exact (hf p (by simp)).continuousOn.congr fun t ht => pev_first f p [] ht
  | cons p' ps ih =>
    have e : Icc p.a (stop p (p' :: ps)) = Icc p.a p.b ∪ Icc p.b (stop p (p' :: ps)) :=
      (Icc_union_Icc_eq_Icc h.le h.le_stop).symm
    rw [e]
    refine ContinuousOn.union_of_isClosed ?_ ?_ isClosed_Icc isClosed_Icc
    · exact (hf p (by simp)).continuousOn.congr fun t ht => pev_first f p _ ht
    · have := ih h.2.2 hj.2 fun r hr => hf r (List.mem_cons_of_mem _ hr)
      rw [h.2.1] at this
      exact this.congr fun t ht => pev_rest f h hj.1 ht.1

/-- Left derivative of the glued curve. -/
theorem pev_left_deriv {p : Piece n} {ps : List (Piece n)} (h : TChain p ps)
    (hj : Joined Piece.g p ps) (hd : ∀ r ∈ p :: ps, ∀ t, HasDerivAt r.g (r.g' t) t) {t : ℝ}
    (ht : t ∈ Icc p.a (stop p ps)) :
    HasDerivWithinAt (pev Piece.g (p :: ps)) (pev Piece.g' (p :: ps) t) (Icc p.a t) t := by
  induction ps generalizing p with
  | nil =>
    rw [pev_first Piece.g' p [] ht]
    refine ((hd p (by simp) t).hasDerivWithinAt).congr (fun s hs => ?_) (pev_first _ p [] ht)
    exact pev_first _ p [] ⟨hs.1, hs.2.trans ht.2⟩
  | cons p' ps ih =>
    by_cases hb : t ≤ p.b
    · rw [pev_first Piece.g' p _ ⟨ht.1, hb⟩]
      refine ((hd p (by simp) t).hasDerivWithinAt).congr (fun s hs => ?_)
        (pev_first _ p _ ⟨ht.1, hb⟩)
      exact pev_first _ p _ ⟨hs.1, hs.2.trans hb⟩
    · push Not at hb
      have e : pev Piece.g' (p :: p' :: ps) t = pev Piece.g' (p' :: ps) t := by
        unfold pev
        rw [sel_cons_neg]
        rintro ⟨_, h2⟩; linarith
      rw [e]
      have := ih h.2.2 hj.2 (fun r hr => hd r (List.mem_cons_of_mem _ hr))
        ⟨by rw [h.2.1]; exact hb.le, ht.2⟩
      rw [h.2.1] at this
      have this := this.congr (f₁ := pev Piece.g (p :: p' :: ps))
        (fun s hs => pev_rest _ h hj.1 hs.1) (pev_rest _ h hj.1 hb.le)
      refine this.mono_of_mem_nhdsWithin ?_
      have : Icc p.a t ∩ Ici p.b ⊆ Icc p.b t := fun s hs => ⟨hs.2, hs.1.2⟩
      exact Filter.mem_of_superset
        (Filter.inter_mem self_mem_nhdsWithin (mem_nhdsWithin_of_mem_nhds (Ici_mem_nhds hb))) this

/-- Two-sided derivative of the glued curve when the derivatives meet too. -/
theorem pev_deriv {p : Piece n} {ps : List (Piece n)} (h : TChain p ps)
    (hj : Joined Piece.g p ps) (hj' : Joined Piece.g' p ps)
    (hd : ∀ r ∈ p :: ps, ∀ t, HasDerivAt r.g (r.g' t) t) {t : ℝ}
    (ht : t ∈ Icc p.a (stop p ps)) :
    HasDerivWithinAt (pev Piece.g (p :: ps)) (pev Piece.g' (p :: ps) t) (Icc p.a (stop p ps)) t := by
  induction ps generalizing p with
  | nil =>
    rw [pev_first Piece.g' p [] ht]
    exact ((hd p (by simp) t).hasDerivWithinAt).congr (fun s hs => pev_first _ p [] hs)
      (pev_first _ p [] ht)
  | cons p' ps ih =>
    have hls := h.le_stop
    have left : t ≤ p.b → HasDerivWithinAt (pev Piece.g (p :: p' :: ps))
        (pev Piece.g' (p :: p' :: ps) t) (Icc p.a p.b) t := by
      intro hb
      rw [pev_first Piece.g' p _ ⟨ht.1, hb⟩]
      exact ((hd p (by simp) t).hasDerivWithinAt).congr (fun s hs => pev_first _ p _ hs)
        (pev_first _ p _ ⟨ht.1, hb⟩)
    have right : p.b ≤ t → HasDerivWithinAt (pev Piece.g (p :: p' :: ps))
        (pev Piece.g' (p :: p' :: ps) t) (Icc p.b (stop p (p' :: ps))) t := by
      intro hb
      rw [pev_rest Piece.g' h hj'.1 hb]
      have := ih h.2.2 hj.2 hj'.2 (fun r hr => hd r (List.mem_cons_of_mem _ hr))
        ⟨by rw [h.2.1]; exact hb, ht.2⟩
      rw [h.2.1] at this
      exact this.congr (fun s hs => pev_rest _ h hj.1 hs.1) (pev_rest _ h hj.1 hb)
    rcases lt_trichotomy t p.b with hb | hb | hb
    · refine (left hb.le).mono_of_mem_nhdsWithin ?_
      have : Icc p.a (stop p (p' :: ps)) ∩ Iic p.b ⊆ Icc p.a p.b := fun s hs => ⟨hs.1.1, hs.2⟩
      exact Filter.mem_of_superset
        (Filter.inter_mem self_mem_nhdsWithin (mem_nhdsWithin_of_mem_nhds (Iic_mem_nhds hb))) this
    · have := (left hb.le).union (right hb.ge)
      rwa [Icc_union_Icc_eq_Icc h.le hls] at this
    · refine (right hb.le).mono_of_mem_nhdsWithin ?_
      have : Icc p.a (stop p (p' :: ps)) ∩ Ici p.b ⊆ Icc p.b (stop p (p' :: ps)) :=
        fun s hs => ⟨hs.2, hs.1.2⟩
      exact Filter.mem_of_superset
        (Filter.inter_mem self_mem_nhdsWithin (mem_nhdsWithin_of_mem_nhds (Ici_mem_nhds hb))) this

/-! ## Segments as pieces -/

/-- The segment evaluates as the pieces: inside exactly when some piece contains the time, and
then with its position and velocity. -/
def Covers (s : Seg n) (ps : List (Piece n)) : Prop :=
  ∀ st t, ((s st t).1 = true ↔ ∃ p, sel ps t = some p) ∧
    ∀ p, sel ps t = some p → (s st t).2.q = p.g t ∧ (s st t).2.dq = p.g' t

theorem sel_append (ps qs : List (Piece n)) (t : ℝ) :
    sel (ps ++ qs) t = (sel ps t).or (sel qs t) := by
  unfold sel; rw [List.find?_append]

theorem evalFrom_nil_tail (s : Seg n) (rest : List (Seg n)) (i : Nat) (st : St n) (t : ℝ)
    (h : (s st t).1 = false) :
    evalFrom (s :: rest) i st t = evalFrom rest (i + 1) (s st t).2 t := by
  cases rest <;> simp [evalFrom, h]

theorem evalFrom_in (s : Seg n) (rest : List (Seg n)) (i : Nat) (st : St n) (t : ℝ)
    (h : (s st t).1 = true) : evalFrom (s :: rest) i st t = (true, (s st t).2, some i) := by
  simp [evalFrom, h]

theorem evalFrom_covers {segs : List (Seg n)} {pss : List (List (Piece n))}
    (h : List.Forall₂ Covers segs pss) (i : Nat) (st : St n) (t : ℝ) :
    ((evalFrom segs i st t).1 = true ↔ ∃ p, sel pss.flatten t = some p) ∧
    ∀ p, sel pss.flatten t = some p →
      (evalFrom segs i st t).2.1.q = p.g t ∧ (evalFrom segs i st t).2.1.dq = p.g' t := by
  induction h generalizing i st with
  | nil => simp [evalFrom, sel]
  | @cons s ps segs pss hc _ ih =>
    obtain ⟨h1, h2⟩ := hc st t
    rw [List.flatten_cons, sel_append]
    cases hs : sel ps t with
    | some p =>
      have : (s st t).1 = true := h1.2 ⟨p, hs⟩
      rw [evalFrom_in _ _ _ _ _ this]
      have := h2 p hs
      simpa using this
    | none =>
      have : (s st t).1 = false := by
        by_contra hc
        obtain ⟨p, hp⟩ := h1.1 (by simpa using hc)
        rw [hs] at hp; cases hp
      rw [evalFrom_nil_tail _ _ _ _ _ this]
      simpa using ih (i + 1) (s st t).2

/-! ## Segments on consecutive intervals -/

/-- Segments on consecutive intervals from `a` to `c`, each inside exactly on its interval, where
the observed part of the state does not depend on the state passed in. -/
def SegChain {α : Type} (obs : St n → α) : ℝ → List (Seg n) → ℝ → Prop
  | a, [], c => a = c
  | a, s :: rest, c => ∃ b, a ≤ b ∧ (∀ st t, (s st t).1 = true ↔ a ≤ t ∧ t ≤ b) ∧
      (∀ st st' t, a ≤ t → t ≤ b → obs (s st t).2 = obs (s st' t).2) ∧ SegChain obs b rest c

theorem SegChain.le {α : Type} {obs : St n → α} {a c : ℝ} {segs : List (Seg n)}
    (h : SegChain obs a segs c) : a ≤ c := by
  induction segs generalizing a with
  | nil => exact le_of_eq h
  | cons s rest ih =>
    obtain ⟨b, hab, _, _, hr⟩ := h
    exact hab.trans (ih hr)

/-- Evaluation over consecutive intervals from position `i`: the code, and where the iterator
stays.  The segments passed over reject this time and every later one. -/
theorem evalFrom_chain {α : Type} {obs : St n → α} {a c : ℝ} {segs : List (Seg n)}
    (hne : segs ≠ []) (h : SegChain obs a segs c) (i : Nat) (st : St n) (t : ℝ) (hat : a ≤ t) :
    ((evalFrom segs i st t).1 = true ↔ t ≤ c) ∧
    ((evalFrom segs i st t).1 = false → (evalFrom segs i st t).2.2 = none) ∧
    ((evalFrom segs i st t).1 = true → ∃ k b, (evalFrom segs i st t).2.2 = some (i + k) ∧
      k < segs.length ∧ b ≤ t ∧ SegChain obs b (segs.drop k) c ∧
      ∀ s ∈ segs.take k, ∀ t' ≥ t, ∀ st', (s st' t').1 = false) := by
  induction segs generalizing a i st with
  | nil => exact absurd rfl hne
  | cons s rest ih =>
    obtain ⟨b, hab, hin, hobs, hr⟩ := h
    by_cases htb : t ≤ b
    · have hi : ∀ st, (s st t).1 = true := fun st => (hin st t).2 ⟨hat, htb⟩
      rw [evalFrom_in _ _ _ _ _ (hi st)]
      refine ⟨⟨fun _ => htb.trans hr.le, fun _ => rfl⟩, fun h' => by simp at h', fun _ => ?_⟩
      exact ⟨0, a, rfl, by simp, hat, ⟨b, hab, hin, hobs, hr⟩, by simp⟩
    · push Not at htb
      have hi : ∀ t' ≥ t, ∀ st, (s st t').1 = false := by
        intro t' ht' st
        by_contra hc
        have := (hin st t').1 (by simpa using hc)
        linarith [this.2]
      rw [evalFrom_nil_tail _ _ _ _ _ (hi t le_rfl st)]
      by_cases hrn : rest = []
      · subst hrn
        simp only [evalFrom]
        have : b = c := hr
        refine ⟨⟨fun h' => by simp at h', fun h' => ?_⟩, by simp, fun h' => by simp at h'⟩
        linarith
      · obtain ⟨h1, h2, h3⟩ := ih hrn hr (i + 1) (s st t).2 htb.le
        refine ⟨h1, h2, fun ht => ?_⟩
        obtain ⟨k, b', hk, hkl, hb't, hch, hall⟩ := h3 ht
        refine ⟨k + 1, b', by rw [hk]; congr 1; omega, by simp; omega, hb't, by simpa using hch, ?_⟩
        intro s' hs'
        rw [List.take_succ_cons, List.mem_cons] at hs'
        rcases hs' with rfl | hs'
        · exact hi
        · exact hall s' hs'

/-- The observation at a time inside does not depend on the state passed in. -/
theorem evalFrom_obs {α : Type} {obs : St n → α} {a c : ℝ} {segs : List (Seg n)}
    (h : SegChain obs a segs c) (i j : Nat) (st st' : St n) (t : ℝ) :
    (evalFrom segs i st t).1 = (evalFrom segs j st' t).1 ∧
    ((evalFrom segs i st t).1 = true →
      obs (evalFrom segs i st t).2.1 = obs (evalFrom segs j st' t).2.1) := by
  induction segs generalizing a i j st st' with
  | nil => exact ⟨rfl, fun h' => by simp [evalFrom] at h'⟩
  | cons s rest ih =>
    obtain ⟨b, hab, hin, hobs, hr⟩ := h
    by_cases ht : a ≤ t ∧ t ≤ b
    · rw [evalFrom_in _ _ _ _ _ ((hin st t).2 ht), evalFrom_in _ _ _ _ _ ((hin st' t).2 ht)]
      exact ⟨rfl, fun _ => hobs _ _ _ ht.1 ht.2⟩
    · have hi : ∀ st, (s st t).1 = false := by
        intro st
        by_contra hc
        exact ht ((hin st t).1 (by simpa using hc))
      rw [evalFrom_nil_tail _ _ _ _ _ (hi st), evalFrom_nil_tail _ _ _ _ _ (hi st')]
      exact ih hr _ _ _ _

/-- Segments that reject the time are passed over. -/
theorem evalFrom_skip (segs : List (Seg n)) (k i : Nat) (st : St n) (t : ℝ)
    (h : ∀ s ∈ segs.take k, ∀ st', (s st' t).1 = false) (hk : k ≤ segs.length) :
    ∃ st', evalFrom segs i st t = evalFrom (segs.drop k) (i + k) st' t := by
  induction k generalizing segs i st with
  | zero => exact ⟨st, rfl⟩
  | succ k ih =>
    cases segs with
    | nil => simp at hk
    | cons s rest =>
      rw [evalFrom_nil_tail _ _ _ _ _ (h s (by simp) st), List.drop_succ_cons]
      obtain ⟨st', e⟩ := ih rest (i + 1) (s st t).2
        (fun s' hs' => h s' (by rw [List.take_succ_cons]; exact List.mem_cons_of_mem _ hs'))
        (by simpa using hk)
      exact ⟨st', by rw [e]; congr 1; omega⟩

theorem evalFrom_before {α : Type} {obs : St n → α} {a c : ℝ} {segs : List (Seg n)}
    (h : SegChain obs a segs c) (i : Nat) (st : St n) (t : ℝ) (hat : t < a) :
    (evalFrom segs i st t).1 = false ∧ (evalFrom segs i st t).2.2 = none := by
  induction segs generalizing a i st with
  | nil => exact ⟨rfl, rfl⟩
  | cons s rest ih =>
    obtain ⟨b, hab, hin, hobs, hr⟩ := h
    have hi : (s st t).1 = false := by
      by_contra hc
      have := (hin st t).1 (by simpa using hc)
      linarith [this.1]
    rw [evalFrom_nil_tail _ _ _ _ _ hi]
    exact ih hr (i + 1) _ (by linarith)

/-- Last piece of a nonempty list. -/
def lastP : Piece n → List (Piece n) → Piece n
  | p, [] => p
  | _, p' :: ps => lastP p' ps

/-- Value at the end. -/
theorem pev_stop (f : Piece n → ℝ → Fin n → ℝ) {p : Piece n} {ps : List (Piece n)}
    (h : TChain p ps) (hj : Joined f p ps) :
    pev f (p :: ps) (stop p ps) = f (lastP p ps) (stop p ps) := by
  induction ps generalizing p with
  | nil => exact pev_first f p [] ⟨h.le, le_refl _⟩
  | cons p' ps ih =>
    have := h.le_stop
    rw [pev_rest f h hj.1 this]
    exact ih h.2.2 hj.2

theorem TChain.append {p r : Piece n} {ps rs : List (Piece n)} (h : TChain p (ps ++ r :: rs)) :
    TChain p ps ∧ r.a = stop p ps ∧ TChain r rs := by
  induction ps generalizing p with
  | nil => exact ⟨h.1, h.2.1, h.2.2⟩
  | cons p' ps ih =>
    obtain ⟨h1, h2, h3⟩ := ih h.2.2
    exact ⟨⟨h.1, h.2.1, h1⟩, h2, h3⟩

theorem stop_append (p r : Piece n) (ps rs : List (Piece n)) :
    stop p (ps ++ r :: rs) = stop r rs := by
  induction ps generalizing p with
  | nil => rfl
  | cons p' ps ih => exact ih p'

/-- Position and velocity, the part of the state every joint-space segment writes. -/
def obsQ (st : St n) : (Fin n → ℝ) × (Fin n → ℝ) := (st.q, st.dq)

/-- Segments made of consecutive pieces are on consecutive intervals. -/
theorem segChain_of_covers {segs : List (Seg n)} {pss : List (List (Piece n))}
    (h : List.Forall₂ Covers segs pss) (hne : ∀ ps ∈ pss, ps ≠ []) {p : Piece n}
    {ps : List (Piece n)} (e : pss.flatten = p :: ps) (hc : TChain p ps) :
    SegChain obsQ p.a segs (stop p ps) := by
  induction h generalizing p ps with
  | nil => simp at e
  | @cons s q segs pss hs hrest ih =>
    cases q with
    | nil => exact absurd rfl (hne [] (by simp))
    | cons q qs =>
      have key : ∀ qs', TChain q qs' → qs' = qs → ∀ st t,
          ((s st t).1 = true ↔ q.a ≤ t ∧ t ≤ stop q qs') ∧
          (∀ st' , q.a ≤ t → t ≤ stop q qs' → obsQ (s st t).2 = obsQ (s st' t).2) := by
        rintro qs' hq rfl st t
        refine ⟨(hs st t).1.trans (sel_isSome_iff hq t), fun st' h1 h2 => ?_⟩
        obtain ⟨r, hr⟩ := (sel_isSome_iff hq t).2 ⟨h1, h2⟩
        have a1 := (hs st t).2 r hr
        have a2 := (hs st' t).2 r hr
        simp only [obsQ, a1.1, a1.2, a2.1, a2.2]
      cases hpf : pss.flatten with
      | nil =>
        rw [List.flatten_cons, hpf, List.append_nil] at e
        obtain ⟨rfl, rfl⟩ := List.cons.inj e
        have hs0 : segs = [] := by
          cases hrest with
          | nil => rfl
          | @cons _ b _ _ _ _ =>
            exfalso
            have hb := hne b (by simp)
            cases b with
            | nil => exact hb rfl
            | cons x xs => simp at hpf
        subst hs0
        exact ⟨stop q qs, hc.le.trans hc.le_stop, fun st t => (key _ hc rfl st t).1,
          fun st st' t h1 h2 => (key _ hc rfl st t).2 st' h1 h2, rfl⟩
      | cons r rs =>
        rw [List.flatten_cons, hpf, List.cons_append] at e
        obtain ⟨rfl, rfl⟩ := List.cons.inj e
        obtain ⟨c1, c2, c3⟩ := hc.append
        have := ih (fun ps hps => hne ps (List.mem_cons_of_mem _ hps)) hpf c3
        rw [stop_append]
        refine ⟨stop q qs, c1.le.trans c1.le_stop, fun st t => (key _ c1 rfl st t).1,
          fun st st' t h1 h2 => (key _ c1 rfl st t).2 st' h1 h2, ?_⟩
        rw [← c2]; exact this

/-! ## Histories of evaluations -/

/-- The iterator is off, or at a segment whose predecessors are over. -/
def ItInv {α : Type} (obs : St n → α) (segs : List (Seg n)) (c : ℝ) (it : Option Nat) (T : ℝ) :
    Prop :=
  ∀ k, it = some k → k < segs.length ∧ ∃ b ≤ T, SegChain obs b (segs.drop k) c ∧
    ∀ s ∈ segs.take k, ∀ t' ≥ T, ∀ st', (s st' t').1 = false

theorem listEval_fresh {α : Type} {obs : St n → α} {a c : ℝ} {segs : List (Seg n)}
    (hne : segs ≠ []) (h : SegChain obs a segs c) (st : St n) (t : ℝ) :
    (evalFrom segs 0 st t).1 = true ↔ a ≤ t ∧ t ≤ c := by
  by_cases hat : a ≤ t
  · rw [(evalFrom_chain hne h 0 st t hat).1]
    exact ⟨fun h => ⟨hat, h⟩, fun h => h.2⟩
  · rw [(evalFrom_before h 0 st t (not_le.1 hat)).1]
    constructor
    · intro h'; simp at h'
    · intro h'; exact absurd h'.1 hat

/-- One evaluation at a time not before the previous one gives what a fresh list gives. -/
theorem listEval_step {α : Type} {obs : St n → α} {a c : ℝ} {segs : List (Seg n)}
    (hne : segs ≠ []) (h : SegChain obs a segs c) {it : Option Nat} {T t : ℝ}
    (hi : ItInv obs segs c it T) (ht : T ≤ t) (st : St n) :
    ∃ r, listEval segs it st t = some r ∧ ItInv obs segs c r.2.2 t ∧
      (r.1 = true ↔ a ≤ t ∧ t ≤ c) ∧
      (r.1 = true → ∀ st', ∃ r', listEval segs none st' t = some r' ∧ r'.1 = true ∧
        obs r'.2.1 = obs r.2.1) := by
  refine ⟨_, if_neg hne, ?_⟩
  have fresh : ∀ st', listEval segs none st' t = some (evalFrom segs 0 st' t) := by
    intro st'; exact if_neg hne
  have hf := fun st' => listEval_fresh hne h st' t
  cases it with
  | none =>
    simp only [Option.getD_none, List.drop_zero]
    refine ⟨?_, hf st, fun hr st' => ⟨_, fresh st', ?_, ?_⟩⟩
    · intro k hk
      by_cases hat : a ≤ t
      · obtain ⟨_, h2, h3⟩ := evalFrom_chain hne h 0 st t hat
        cases hr : (evalFrom segs 0 st t).1 with
        | false => rw [h2 hr] at hk; cases hk
        | true =>
          obtain ⟨k', b, e, hk', hb, hch, hrej⟩ := h3 hr
          rw [e] at hk
          obtain rfl : 0 + k' = k := Option.some.inj hk
          rw [Nat.zero_add]
          exact ⟨hk', b, hb, hch, hrej⟩
      · rw [(evalFrom_before h 0 st t (not_le.1 hat)).2] at hk; cases hk
    · exact (hf st').2 ((hf st).1 hr)
    · exact ((evalFrom_obs h 0 0 st st' t).2 hr).symm
  | some k =>
    obtain ⟨hk, b, hb, hch, hrej⟩ := hi k rfl
    simp only [Option.getD_some]
    have hne' : segs.drop k ≠ [] := by
      intro e
      have := congrArg List.length e
      simp at this
      omega
    obtain ⟨h1, h2, h3⟩ := evalFrom_chain hne' hch k st t (hb.trans ht)
    have hskip := fun st' => evalFrom_skip segs k 0 st' t (fun s hs st' => hrej s hs t ht st') hk.le
    refine ⟨?_, ?_, fun hr st' => ⟨_, fresh st', ?_, ?_⟩⟩
    · intro k2 hk2
      cases hr : (evalFrom (segs.drop k) k st t).1 with
      | false => rw [h2 hr] at hk2; cases hk2
      | true =>
        obtain ⟨k', b', e, hk', hb', hch', hrej'⟩ := h3 hr
        rw [e] at hk2
        obtain rfl : k + k' = k2 := Option.some.inj hk2
        rw [List.drop_drop] at hch'
        refine ⟨by simp at hk'; omega, b', hb', hch', ?_⟩
        intro s hs t' ht' st'
        rw [List.take_add, List.mem_append] at hs
        rcases hs with hs | hs
        · exact hrej s hs t' (ht.trans ht') st'
        · exact hrej' s hs t' ht' st'
    · rw [← hf st]
      obtain ⟨st', e⟩ := hskip st
      rw [e, (evalFrom_obs hch k (0 + k) st st' t).1]
    · obtain ⟨st'', e⟩ := hskip st'
      rw [e, ← (evalFrom_obs hch k (0 + k) st st'' t).1]; exact hr
    · obtain ⟨st'', e⟩ := hskip st'
      rw [e]; exact ((evalFrom_obs hch k (0 + k) st st'' t).2 hr).symm

end Verif.Ct
