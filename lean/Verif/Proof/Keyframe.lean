/-
Lemmas on maps of configurations, search trees and neighbouring key frames.
-/
import Verif.Model.Keyframe
import Mathlib.Tactic.Linarith
import Mathlib.Tactic.FieldSimp
import Mathlib.Tactic.Ring

set_option linter.unusedSectionVars false
set_option linter.style.haveILetI false

namespace Verif.Keyframe

variable {N K : Type} [LinearOrder N] [Field K] [LinearOrder K]

theorem find?_put (m : Cfg N K) (n : N) (x : K) (k : N) :
    find? (put m n x) k = if k = n then some x else find? m k := by
  induction m with
  | nil => simp [put, find?]
  | cons e m ih =>
    obtain ⟨a, y⟩ := e
    by_cases h1 : n < a
    · simp only [put, h1, if_true, find?]
    · by_cases h2 : n = a
      · subst h2
        simp only [put, h1, if_true, if_false, find?]
        split_ifs <;> rfl
      · simp only [put, h1, h2, if_false, find?, ih]
        by_cases h4 : k = a
        · subst h4
          have : k ≠ n := fun h => h2 h.symm
          simp [this]
        · simp [h4]

theorem find?_blend {t t0 t1 : K} (h : t1 - t0 ≠ 0) (start : Cfg N K) :
    ∀ (l m : Cfg N K), (l.map Prod.fst).Nodup → ∃ r, blend t t0 start t1 l m = some r ∧
      ∀ k, find? r k = match find? l k with
        | some x => some (find start k + (t - t0) * ((x - find start k) / (t1 - t0)))
        | none => find? m k := by
  intro l
  induction l with
  | nil => intro m _; exact ⟨m, rfl, fun k => by simp [find?]⟩
  | cons e l ih =>
    obtain ⟨n, x⟩ := e
    intro m hd
    simp only [List.map_cons, List.nodup_cons] at hd
    obtain ⟨r, hr, hk⟩ := ih (put m n (find start n + (t - t0) * ((x - find start n) / (t1 - t0)))) hd.2
    refine ⟨r, by simp [blend, linterp, h, hr], fun k => ?_⟩
    rw [hk k]
    have hnone : find? l n = none := by
      have : ∀ l : Cfg N K, n ∉ l.map Prod.fst → find? l n = none := by
        intro l
        induction l with
        | nil => intro _; rfl
        | cons e l ih =>
          obtain ⟨a, y⟩ := e
          intro h
          simp only [List.map_cons, List.mem_cons, not_or] at h
          simp [find?, h.1, ih h.2]
      exact this l hd.1
    by_cases hkn : k = n
    · subst hkn
      simp [hnone, find?, find?_put]
    · simp [find?, hkn, find?_put]

theorem cfgEqual_iff {a b : Cfg N K} : cfgEqual a b = true ↔ a = b := by
  unfold cfgEqual
  induction a generalizing b with
  | nil => cases b <;> simp
  | cons x a ih =>
    cases b with
    | nil => simp
    | cons y b =>
      have := @ih b
      obtain ⟨x1, x2⟩ := x
      obtain ⟨y1, y2⟩ := y
      simp only [Bool.and_eq_true, decide_eq_true_eq, List.length_cons, Nat.add_right_cancel_iff, List.zip_cons_cons,
        List.all_cons, List.cons.injEq, Prod.mk.injEq] at this ⊢
      rw [← this]
      tauto

theorem search_eq {α : Type} (cmp : α → α → Ordering) (v : α) (s : Tree α)
    (h : s.elems.Pairwise fun p q => cmp v p ≠ .gt → cmp v q = .lt) :
    s.search cmp v = s.elems.find? fun p => cmp v p == .eq := by
  induction s with
  | nil => rfl
  | node l x r ihl ihr =>
    simp only [Tree.elems, List.pairwise_append, List.pairwise_cons] at h
    obtain ⟨hl, ⟨hx, hr⟩, hlx⟩ := h
    simp only [Tree.search, Tree.elems, List.find?_append, List.find?_cons]
    cases hc : cmp v x with
    | lt =>
      simp only [ihl hl]
      have : (r.elems.find? fun p => cmp v p == .eq) = none := by
        rw [List.find?_eq_none]
        intro y hy
        simp [hx y hy (by simp [hc])]
      simp [this]
    | eq =>
      have : (l.elems.find? fun p => cmp v p == .eq) = none := by
        rw [List.find?_eq_none]
        intro y hy he
        have := hlx y hy x (by simp) (by simp at he; simp [he])
        simp [hc] at this
      simp [this]
    | gt =>
      simp only [ihr hr]
      have : (l.elems.find? fun p => cmp v p == .eq) = none := by
        rw [List.find?_eq_none]
        intro y hy he
        have := hlx y hy x (by simp) (by simp at he; simp [he])
        simp [hc] at this
      simp [this]

/-- Times go up. -/
def Asc (k : List (Key N K)) : Prop := k.Pairwise fun a b => a.time < b.time

theorem pairs_mem {k : List (Key N K)} {p : Key N K × Key N K} (h : p ∈ pairs k) : p.1 ∈ k ∧ p.2 ∈ k := by
  induction k with
  | nil => simp [pairs] at h
  | cons a r ih =>
    cases r with
    | nil => simp [pairs] at h
    | cons b r =>
      simp only [pairs, List.mem_cons] at h
      rcases h with h | h
      · subst h; simp
      · have := ih h
        exact ⟨List.mem_cons_of_mem _ this.1, List.mem_cons_of_mem _ this.2⟩

theorem pairs_lt {k : List (Key N K)} (hk : Asc k) {p : Key N K × Key N K} (h : p ∈ pairs k) :
    p.1.time < p.2.time ∧ ∀ c ∈ k, c.time ≤ p.1.time ∨ p.2.time ≤ c.time := by
  induction k with
  | nil => simp [pairs] at h
  | cons a r ih =>
    cases r with
    | nil => simp [pairs] at h
    | cons b r =>
      unfold Asc at hk
      have hk' := hk
      rw [List.pairwise_cons] at hk
      simp only [pairs, List.mem_cons] at h
      rcases h with h | h
      · subst h
        refine ⟨hk.1 b (by simp), ?_⟩
        intro c hc
        simp only [List.mem_cons] at hc
        rcases hc with rfl | rfl | hc
        · exact .inl le_rfl
        · exact .inr le_rfl
        · exact .inr (List.rel_of_pairwise_cons hk.2 hc).le
      · obtain ⟨h1, h2⟩ := ih hk.2 h
        refine ⟨h1, ?_⟩
        intro c hc
        rcases List.mem_cons.1 hc with rfl | hc
        · exact .inl (hk.1 _ (pairs_mem h).1).le
        · exact h2 c hc

theorem pairs_pairwise {k : List (Key N K)} (hk : Asc k) :
    (pairs k).Pairwise fun p q => p.2.time ≤ q.1.time := by
  induction k with
  | nil => simp [pairs]
  | cons a r ih =>
    cases r with
    | nil => simp [pairs]
    | cons b r =>
      unfold Asc at hk
      rw [List.pairwise_cons] at hk
      simp only [pairs, List.pairwise_cons]
      refine ⟨?_, ih hk.2⟩
      intro q hq
      have := (pairs_mem hq).1
      rcases List.mem_cons.1 this with h | h
      · rw [h]
      · exact (List.rel_of_pairwise_cons hk.2 h).le

theorem insertAll_eq {k : List (Key N K)} (hk : Asc k) : insertAll (pairs k) = pairs k := by
  have key : ∀ (l acc : List (Key N K × Key N K)),
      (acc ++ l).Pairwise (fun p q => pairCompare q p ≠ .eq) →
      l.foldl (fun s p => if s.any fun q => pairCompare p q == .eq then s else s ++ [p]) acc = acc ++ l := by
    intro l
    induction l with
    | nil => simp
    | cons p l ih =>
      intro acc h
      have h' := List.pairwise_append.1 h
      have : (acc.any fun q => pairCompare p q == .eq) = false := by
        rw [List.any_eq_false]
        intro q hq
        simpa using h'.2.2 q hq p (by simp)
      simp only [List.foldl_cons, this, Bool.false_eq_true, if_false]
      rw [ih (acc ++ [p]) (by simpa using h)]
      simp
  unfold insertAll
  rw [key _ [] ?_]
  · rfl
  · rw [List.nil_append]
    refine List.Pairwise.imp_of_mem ?_ (pairs_pairwise hk)
    intro p q hp hq h
    have h1 := (pairs_lt hk hp).1
    have h2 := (pairs_lt hk hq).1
    unfold pairCompare
    split_ifs with h3 h4
    · simp
    · simp
    · rcases h.lt_or_eq with h | h
      · exact absurd (.inl h) h4
      · exact absurd (.inr ⟨h, h1⟩) h4

theorem probe_eq {t : K} {p : Key N K × Key N K} (hp : p.1.time < p.2.time) :
    pairCompare (⟨t, []⟩, ⟨t, []⟩) p = if t < p.1.time then .lt else if p.2.time ≤ t then .gt else .eq := by
  unfold pairCompare
  by_cases h1 : t < p.1.time
  · simp [h1]
  · by_cases h2 : p.2.time ≤ t
    · have : p.2.time < t ∨ p.2.time = t ∧ p.1.time < p.2.time := by
        rcases h2.lt_or_eq with h | h
        · exact .inl h
        · exact .inr ⟨h, hp⟩
      simp [h1, h2, this]
    · have : ¬(p.2.time < t ∨ p.2.time = t ∧ p.1.time < p.2.time) := by
        rintro (h | h)
        · exact h2 h.le
        · exact h2 h.1.le
      simp [h1, h2, this]

theorem pairFind_eq {k : List (Key N K)} (hk : Asc k) {s : Tree (Key N K × Key N K)} (hs : s.elems = pairs k) (t : K) :
    pairFind s t = (pairs k).find? fun p => decide (p.1.time ≤ t ∧ t < p.2.time) := by
  unfold pairFind
  rw [search_eq]
  · rw [hs]
    have : ∀ l : List (Key N K × Key N K), (∀ p ∈ l, p.1.time < p.2.time) →
        (l.find? fun p => pairCompare (⟨t, []⟩, ⟨t, []⟩) p == .eq) =
          l.find? fun p => decide (p.1.time ≤ t ∧ t < p.2.time) := by
      intro l
      induction l with
      | nil => simp
      | cons p l ih =>
        intro h
        rw [List.find?_cons, List.find?_cons, ih fun q hq => h q (List.mem_cons_of_mem _ hq),
          probe_eq (h p (by simp))]
        congr 1
        by_cases h1 : t < p.1.time
        · simp [h1]
        · by_cases h2 : p.2.time ≤ t
          · simp [h1, h2]
          · simp [h1, h2, not_lt.1 h1, not_le.1 h2]
    exact this _ fun p hp => (pairs_lt hk hp).1
  · rw [hs]
    refine List.Pairwise.imp_of_mem ?_ (pairs_pairwise hk)
    intro p q hp hq h hg
    have h1 := (pairs_lt hk hp).1
    have h2 := (pairs_lt hk hq).1
    rw [probe_eq h1] at hg
    rw [probe_eq h2]
    have : t < p.2.time := by
      by_contra hc
      have h3 : ¬ t < p.1.time := fun h3 => hc (h3.trans h1)
      simp [h3, not_lt.1 hc] at hg
    simp [this.trans_le h]

theorem exists_pair {k : List (Key N K)} (hk : Asc k) {t : K} {a b : Key N K} (ha : a ∈ k) (hb : b ∈ k)
    (h1 : a.time ≤ t) (h2 : t < b.time) : ∃ p ∈ pairs k, p.1.time ≤ t ∧ t < p.2.time := by
  induction k generalizing a with
  | nil => simp at ha
  | cons x r ih =>
    unfold Asc at hk
    rw [List.pairwise_cons] at hk
    cases r with
    | nil =>
      simp only [List.mem_singleton] at ha hb
      subst ha; subst hb
      exact absurd (h1.trans_lt h2) (lt_irrefl _)
    | cons y r =>
      have hxa : x.time ≤ a.time := by
        rcases List.mem_cons.1 ha with h | h
        · rw [h]
        · exact (hk.1 _ h).le
      by_cases hy : t < y.time
      · exact ⟨(x, y), by simp [pairs], hxa.trans h1, hy⟩
      · have hb' : b ∈ y :: r := by
          rcases List.mem_cons.1 hb with h | h
          · rw [h] at h2
            exact absurd ((hxa.trans h1).trans_lt h2) (lt_irrefl _)
          · exact h
        obtain ⟨p, hp, h⟩ := ih (a := y) hk.2 (by simp) hb' (not_lt.1 hy)
        exact ⟨p, by simp [pairs, hp], h⟩

theorem sortKeys_perm (l : List (Key N K)) : (sortKeys l).Perm l := List.perm_insertionSort _ _

theorem sortKeys_asc {l : List (Key N K)} (hl : (l.map Key.time).Nodup) : Asc (sortKeys l) := by
  haveI : Std.Total fun a b : Key N K => a.time ≤ b.time := ⟨fun a b => le_total _ _⟩
  haveI : IsTrans (Key N K) fun a b => a.time ≤ b.time := ⟨fun a b c => le_trans⟩
  have h1 : (sortKeys l).Pairwise fun a b => a.time ≤ b.time := List.pairwise_insertionSort _ _
  have h2 : ((sortKeys l).map Key.time).Nodup := ((sortKeys_perm l).map Key.time).nodup_iff.2 hl
  rw [List.Nodup, List.pairwise_map] at h2
  unfold Asc
  exact (h1.and h2).imp fun h => lt_of_le_of_ne h.1 h.2

theorem asc_suffix {p k : List (Key N K)} (h : Asc (p ++ k)) : Asc k := (List.pairwise_append.1 h).2.1

theorem clipLoop_some {k k' : List (Key N K)} (h : clipLoop k = some k') :
    k = [] ∧ k' = [] ∨ ∃ p a b r, k = p ++ a :: b :: r ∧ k' = a :: b :: r ∧ (∀ c ∈ p, c.cfg = a.cfg) ∧ a.cfg ≠ b.cfg := by
  induction k with
  | nil => simp [clipLoop] at h; simp [h]
  | cons a k ih =>
    cases k with
    | nil => simp [clipLoop] at h
    | cons b r =>
      simp only [clipLoop] at h
      split_ifs at h with hc
      · rw [cfgEqual_iff] at hc
        obtain ⟨h1, _⟩ | ⟨p, a', b', r', h1, h2, h3, h4⟩ := ih h
        · simp at h1
        · refine .inr ⟨a :: p, a', b', r', by rw [h1]; rfl, h2, ?_, h4⟩
          intro c hcc
          rcases List.mem_cons.1 hcc with rfl | hcc
          · rw [hc]
            cases p with
            | nil => simp at h1; rw [h1.1]
            | cons q p =>
              simp at h1
              rw [h1.1]; exact h3 q (by simp)
          · exact h3 c hcc
      · refine .inr ⟨[], a, b, r, rfl, by simpa using h.symm, by simp, fun he => hc (cfgEqual_iff.2 he)⟩

theorem clipLoop_none {k : List (Key N K)} (h : clipLoop k = none) :
    k ≠ [] ∧ ∀ a ∈ k, ∀ b ∈ k, a.cfg = b.cfg := by
  induction k with
  | nil => simp [clipLoop] at h
  | cons a k ih =>
    cases k with
    | nil => simp
    | cons b r =>
      simp only [clipLoop] at h
      split_ifs at h with hc
      rw [cfgEqual_iff] at hc
      have h2 := (ih h).2
      have h3 : ∀ x ∈ a :: b :: r, x.cfg = b.cfg := by
        intro x hx
        rcases List.mem_cons.1 hx with rfl | hx
        · exact hc
        · exact h2 x hx b (by simp)
      exact ⟨by simp, fun x hx y hy => (h3 x hx).trans (h3 y hy).symm⟩

theorem clipLoop_same {k : List (Key N K)} (h0 : k ≠ []) (h : ∀ a ∈ k, ∀ b ∈ k, a.cfg = b.cfg) : clipLoop k = none := by
  cases hc : clipLoop k with
  | none => rfl
  | some k' =>
    obtain ⟨h1, _⟩ | ⟨p, a, b, r, h1, h2, h3, h4⟩ := clipLoop_some hc
    · exact absurd h1 h0
    · exact absurd (h a (by simp [h1]) b (by simp [h1])) h4

theorem find_suffix {p : List (Key N K)} {a : Key N K} {r : List (Key N K)} (hk : Asc (p ++ a :: r)) {t : K}
    (ht : a.time ≤ t) :
    ((pairs (p ++ a :: r)).find? fun p => decide (p.1.time ≤ t ∧ t < p.2.time)) =
      (pairs (a :: r)).find? fun p => decide (p.1.time ≤ t ∧ t < p.2.time) := by
  induction p with
  | nil => rfl
  | cons x p ih =>
    have hk' : Asc (p ++ a :: r) := by
      unfold Asc at hk ⊢
      rw [List.cons_append, List.pairwise_cons] at hk
      exact hk.2
    rw [← ih hk']
    cases p with
    | nil => simp [pairs, ht]
    | cons y p =>
      have hy : y.time < a.time := by
        unfold Asc at hk'
        rw [List.cons_append, List.pairwise_cons] at hk'
        exact hk'.1 a (by simp)
      simp [pairs, (hy.trans_le ht).le]

/-- Names go up, as in a tree map. -/
def Wf (m : Cfg N K) : Prop := m.Pairwise fun a b => a.1 < b.1

theorem put_mem {m : Cfg N K} {n : N} {x : K} {e : N × K} (h : e ∈ put m n x) : e = (n, x) ∨ e ∈ m := by
  induction m with
  | nil => simpa [put] using h
  | cons f m ih =>
    obtain ⟨a, y⟩ := f
    by_cases h1 : n < a
    · simp only [put, h1, if_true] at h; simpa using h
    · by_cases h2 : n = a
      · simp only [put, h2, if_false, if_true, lt_irrefl] at h
        rcases List.mem_cons.1 h with h | h
        · exact .inl (by rw [h, h2])
        · exact .inr (List.mem_cons_of_mem _ h)
      · simp only [put, h1, h2, if_false] at h
        rcases List.mem_cons.1 h with h | h
        · exact .inr (by simp [h])
        · rcases ih h with h | h
          · exact .inl h
          · exact .inr (List.mem_cons_of_mem _ h)

theorem put_wf {m : Cfg N K} (h : Wf m) (n : N) (x : K) : Wf (put m n x) := by
  induction m with
  | nil => simp [put, Wf]
  | cons f m ih =>
    obtain ⟨a, y⟩ := f
    unfold Wf at h ih ⊢
    rw [List.pairwise_cons] at h
    by_cases h1 : n < a
    · simp only [put, h1, if_true, List.pairwise_cons]
      refine ⟨?_, h⟩
      intro e he
      rcases List.mem_cons.1 he with rfl | he
      · exact h1
      · exact h1.trans (h.1 e he)
    · by_cases h2 : n = a
      · subst h2
        simp only [put, lt_irrefl, if_false, if_true, List.pairwise_cons]
        exact h
      · simp only [put, h1, h2, if_false, List.pairwise_cons]
        refine ⟨?_, ih h.2⟩
        intro e he
        rcases put_mem he with rfl | he
        · exact lt_of_le_of_ne (not_lt.1 h1) (Ne.symm h2)
        · exact h.1 e he

theorem Wf.nodup {m : Cfg N K} (h : Wf m) : (m.map Prod.fst).Nodup := by
  rw [List.Nodup, List.pairwise_map]
  exact h.imp fun h => h.ne

theorem find?_notMem {m : Cfg N K} {n : N} (h : n ∉ m.map Prod.fst) : find? m n = none := by
  induction m with
  | nil => rfl
  | cons e m ih =>
    obtain ⟨a, y⟩ := e
    simp only [List.map_cons, List.mem_cons, not_or] at h
    simp [find?, h.1, ih h.2]

theorem foldl_put (l m : Cfg N K) (hl : (l.map Prod.fst).Nodup) (n : N) :
    find? (l.foldl (fun m e => put m e.1 e.2) m) n = (find? l n).or (find? m n) := by
  induction l generalizing m with
  | nil => simp [find?]
  | cons e l ih =>
    obtain ⟨a, y⟩ := e
    simp only [List.map_cons, List.nodup_cons] at hl
    rw [List.foldl_cons, ih _ hl.2, find?_put]
    by_cases h : n = a
    · subst h
      simp [find?, find?_notMem hl.1]
    · simp [find?, h]

theorem foldl_wf (l m : Cfg N K) (hm : Wf m) : Wf (l.foldl (fun m e => put m e.1 e.2) m) := by
  induction l generalizing m with
  | nil => exact hm
  | cons e l ih => exact ih _ (put_wf hm _ _)

theorem mapM_print {parse : N → Option K} {pr : K → N} (h : ∀ x, parse (pr x) = some x) (xs : List K) :
    (xs.map pr).mapM parse = some xs := by
  induction xs with
  | nil => rfl
  | cons x xs ih => simp [List.mapM_cons, h, ih]

theorem rows_none (parse : N → Option K) (names : List N) (time : K) (dflt : Cfg N K) (i : Nat)
    (l : List (Option (List N))) :
    rows parse names time none dflt i l = rows parse names time none dflt 0 ((l.filterMap id).map some) := by
  have key : ∀ (l : List (Option (List N))) (i j : Nat),
      rows parse names time none dflt i l = rows parse names time none dflt j ((l.filterMap id).map some) := by
    intro l
    induction l with
    | nil => intros; rfl
    | cons e l ih =>
      intro i j
      cases e with
      | none => simp only [rows, List.filterMap_cons, id]; exact ih _ _
      | some ws =>
        simp only [rows, List.filterMap_cons, id, List.map_cons, row]
        rw [ih (i + 1) (j + 1)]
        rfl
  exact key l i 0

theorem header_cut (l : List (Option (List N))) {w : List N} {ws : List (List N)}
    (h : l.filterMap id = w :: ws) : ∃ r, r.filterMap id = ws ∧ ∃ b, (∀ e ∈ b, e = none) ∧ l = b ++ some w :: r := by
  induction l with
  | nil => simp at h
  | cons e l ih =>
    cases e with
    | none =>
      obtain ⟨r, h1, b, h2, h3⟩ := ih (by simpa using h)
      exact ⟨r, h1, none :: b, by simpa using h2, by rw [h3]; rfl⟩
    | some v =>
      simp only [List.filterMap_cons, id, List.cons.injEq] at h
      exact ⟨l, h.2, [], by simp, by rw [h.1]; rfl⟩

theorem header_blank (isTime : N → Bool) (b l : List (Option (List N))) (hb : ∀ e ∈ b, e = none) :
    header isTime (b ++ l) = header isTime l := by
  induction b with
  | nil => rfl
  | cons e b ih =>
    have := hb e (by simp)
    subst this
    simpa [header] using ih fun e he => hb e (by simp [he])

theorem zip_fst_nodup {names : List N} (h : names.Nodup) (xs : List K) : ((names.zip xs).map Prod.fst).Nodup := by
  induction names generalizing xs with
  | nil => simp
  | cons n names ih =>
    cases xs with
    | nil => simp
    | cons x xs =>
      rw [List.nodup_cons] at h
      simp only [List.zip_cons_cons, List.map_cons, List.nodup_cons]
      refine ⟨fun hm => ?_, ih h.2 xs⟩
      obtain ⟨e, he, h1⟩ := List.mem_map.1 hm
      exact h.1 (h1 ▸ (List.of_mem_zip (a := e.1) (b := e.2) he).1)

end Verif.Keyframe
