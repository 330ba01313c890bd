import Verif.Model.Mat
import Mathlib.Data.List.Nodup
import Mathlib.Data.List.ProdSigma
import Mathlib.Algebra.BigOperators.Group.Finset.Basic
import Mathlib.Algebra.BigOperators.Fin
import Mathlib.Tactic.Ring

/-! # Lemmas about loops of stores -/

namespace Verif.Mat

variable {K : Type} [CommRing K]

omit [CommRing K] in
theorem upd_fold {ι : Type} (ya : ι → Nat) (h : ι → Mem K → K) :
    ∀ (L : List ι), L.Nodup → (∀ a ∈ L, ∀ b ∈ L, ya a = ya b → a = b) →
      (∀ k ∈ L, ∀ m m' : Mem K, (∀ a, (∀ l ∈ L, l ≠ k → a ≠ ya l) → m a = m' a) → h k m = h k m') →
      ∀ m : Mem K,
        (∀ k ∈ L, L.foldl (fun m k => store m (ya k) (h k m)) m (ya k) = h k m) ∧
        (∀ a, (∀ l ∈ L, a ≠ ya l) → L.foldl (fun m k => store m (ya k) (h k m)) m a = m a) := by
  intro L
  induction L with
  | nil => intro _ _ _ m; simp
  | cons k t ih =>
    intro hnd hi hl m
    have hk : k ∉ t := (List.nodup_cons.1 hnd).1
    obtain ⟨i1, i2⟩ := ih (List.nodup_cons.1 hnd).2
      (fun a ha b hb => hi a (List.mem_cons_of_mem _ ha) b (List.mem_cons_of_mem _ hb))
      (fun x hx m m' hm => hl x (List.mem_cons_of_mem _ hx) m m'
        (fun a ha => hm a (fun l hlt => ha l (List.mem_cons_of_mem _ hlt))))
      (store m (ya k) (h k m))
    refine ⟨?_, ?_⟩
    · intro x hx
      rw [List.foldl_cons]
      rcases List.mem_cons.1 hx with rfl | hx'
      · rw [i2 (ya x) (fun l hlt he => hk (by
          rw [hi x (List.mem_cons_self) l (List.mem_cons_of_mem _ hlt) he]; exact hlt))]
        simp [store]
      · rw [i1 x hx']
        refine hl x hx _ _ (fun a ha => ?_)
        have := ha k List.mem_cons_self (fun e => hk (e ▸ hx'))
        simp [store, this]
    · intro a ha
      rw [List.foldl_cons, i2 a (fun l hlt => ha l (List.mem_cons_of_mem _ hlt))]
      simp [store, ha k List.mem_cons_self]

omit [CommRing K] in
theorem swap_fold {ι : Type} (xa ya : ι → Nat) :
    ∀ (L : List ι), L.Nodup → (∀ a ∈ L, ∀ b ∈ L, xa a = xa b → a = b) →
      (∀ a ∈ L, ∀ b ∈ L, ya a = ya b → a = b) → (∀ a ∈ L, ∀ b ∈ L, xa a ≠ ya b) →
      ∀ m : Mem K,
        let F := L.foldl (fun (m : Mem K) k => store (store m (ya k) (m (xa k))) (xa k) (m (ya k))) m
        (∀ k ∈ L, F (xa k) = m (ya k) ∧ F (ya k) = m (xa k)) ∧
        (∀ a, (∀ l ∈ L, a ≠ xa l ∧ a ≠ ya l) → F a = m a) := by
  intro L
  induction L with
  | nil => intro _ _ _ _ m; simp
  | cons k t ih =>
    intro hnd hx hy hxy m
    have hk : k ∉ t := (List.nodup_cons.1 hnd).1
    obtain ⟨i1, i2⟩ := ih (List.nodup_cons.1 hnd).2
      (fun a ha b hb => hx a (List.mem_cons_of_mem _ ha) b (List.mem_cons_of_mem _ hb))
      (fun a ha b hb => hy a (List.mem_cons_of_mem _ ha) b (List.mem_cons_of_mem _ hb))
      (fun a ha b hb => hxy a (List.mem_cons_of_mem _ ha) b (List.mem_cons_of_mem _ hb))
      (store (store m (ya k) (m (xa k))) (xa k) (m (ya k)))
    have h0 := hxy k List.mem_cons_self k List.mem_cons_self
    have ne1 : ∀ l ∈ t, xa k ≠ xa l := fun l hl e =>
      hk (hx k List.mem_cons_self l (List.mem_cons_of_mem _ hl) e ▸ hl)
    have ne2 : ∀ l ∈ t, ya k ≠ ya l := fun l hl e =>
      hk (hy k List.mem_cons_self l (List.mem_cons_of_mem _ hl) e ▸ hl)
    have ne3 : ∀ l ∈ t, xa k ≠ ya l := fun l hl => hxy _ List.mem_cons_self _ (List.mem_cons_of_mem _ hl)
    have ne4 : ∀ l ∈ t, ya k ≠ xa l := fun l hl e =>
      hxy l (List.mem_cons_of_mem _ hl) k List.mem_cons_self e.symm
    refine ⟨?_, ?_⟩
    · intro x hx'
      simp only [List.foldl_cons]
      rcases List.mem_cons.1 hx' with rfl | ht
      · rw [i2 (xa x) (fun l hl => ⟨ne1 l hl, ne3 l hl⟩), i2 (ya x) (fun l hl => ⟨ne4 l hl, ne2 l hl⟩)]
        simp [store, h0.symm]
      · rw [(i1 x ht).1, (i1 x ht).2]
        simp [store, (ne1 x ht).symm, (ne2 x ht).symm, (ne3 x ht).symm, (ne4 x ht).symm]
    · intro a ha
      simp only [List.foldl_cons]
      rw [i2 a (fun l hl => ha l (List.mem_cons_of_mem _ hl))]
      have := ha k List.mem_cons_self
      simp [store, this.1, this.2]

theorem forN_succ {σ : Type} (n : Nat) (f : Nat → σ → σ) (s : σ) :
    forN (n + 1) f s = forN n (fun k => f (k + 1)) (f 0 s) := by
  simp [forN, List.range_succ_eq_map, List.foldl_map]

theorem forN_snoc {σ : Type} (n : Nat) (f : Nat → σ → σ) (s : σ) :
    forN (n + 1) f s = f n (forN n f s) := by
  simp [forN, List.range_succ]

theorem forN_add {σ : Type} (a b : Nat) (f : Nat → σ → σ) (s : σ) :
    forN (a + b) f s = forN b (fun k => f (a + k)) (forN a f s) := by
  simp [forN, List.range_add, List.foldl_map]

theorem forN_mul {σ : Type} (a b : Nat) (f : Nat → σ → σ) (s : σ) :
    forN (a * b) f s = forN b (fun j => forN a (fun i => f (a * j + i))) s := by
  induction b with
  | zero => simp [forN]
  | succ n ih => rw [Nat.mul_succ, forN_add, ih, forN_snoc]

theorem forN_id {σ : Type} (n : Nat) (s : σ) : forN n (fun _ s => s) s = s := by
  induction n with
  | zero => rfl
  | succ n ih => rw [forN_snoc, ih]

theorem forPtr_eq {σ : Type} (n x inc : Nat) (h : 0 < inc) (f : Nat → σ → σ) (s : σ) :
    forPtr x (x + n * inc) inc f s = forN n (fun k => f (x + k * inc)) s := by
  induction n generalizing x s with
  | zero => rw [forPtr]; simp [forN]
  | succ n ih =>
    rw [forPtr, if_pos ⟨by rw [Nat.succ_mul]; omega, h⟩, forN_succ]
    have e : x + (n + 1) * inc = (x + inc) + n * inc := by ring
    rw [e, ih]
    congr 1
    · funext k; congr 1; ring
    · simp

theorem forPtr2_eq {σ : Type} (n x inc y incy : Nat) (h : 0 < inc) (f : Nat → Nat → σ → σ) (s : σ) :
    forPtr2 x (x + n * inc) inc y incy f s = forN n (fun k => f (x + k * inc) (y + k * incy)) s := by
  induction n generalizing x y s with
  | zero => rw [forPtr2]; simp [forN]
  | succ n ih =>
    rw [forPtr2, if_pos ⟨by rw [Nat.succ_mul]; omega, h⟩, forN_succ]
    have e : x + (n + 1) * inc = (x + inc) + n * inc := by ring
    rw [e, ih]
    congr 1
    · funext k; congr 1 <;> ring
    · simp

theorem forPtr_stop {σ : Type} (x inc : Nat) (f : Nat → σ → σ) (s : σ) : forPtr x x inc f s = s := by
  rw [forPtr]; simp

theorem forPtr2_stop {σ : Type} (x inc y incy : Nat) (f : Nat → Nat → σ → σ) (s : σ) :
    forPtr2 x x inc y incy f s = s := by
  rw [forPtr2]; simp

/-- nested loops as one loop over pairs `(j,i)`. -/
theorem forN_nest {σ : Type} (n m : Nat) (f : Nat → Nat → σ → σ) (s : σ) :
    forN n (fun j s => forN m (fun i s => f j i s) s) s =
      (List.range n ×ˢ List.range m).foldl (fun s p => f p.1 p.2 s) s := by
  simp [forN, SProd.sprod, List.product, List.foldl_flatMap, List.foldl_map]

theorem forN_sum (n : Nat) (f : Nat → K) (s : K) :
    forN n (fun k s => s + f k) s = s + ∑ k ∈ Finset.range n, f k := by
  induction n with
  | zero => simp [forN]
  | succ n ih => rw [forN_snoc, ih, Finset.sum_range_succ]; ring

omit [CommRing K] in
/-- loop over `n` stores at distinct addresses. -/
theorem forN_store (n : Nat) (ya : Nat → Nat) (h : Nat → Mem K → K)
    (hi : ∀ a < n, ∀ b < n, ya a = ya b → a = b)
    (hl : ∀ k < n, ∀ m m' : Mem K, (∀ a, (∀ l < n, l ≠ k → a ≠ ya l) → m a = m' a) → h k m = h k m')
    (m : Mem K) :
    (∀ k < n, forN n (fun k m => store m (ya k) (h k m)) m (ya k) = h k m) ∧
    (∀ a, (∀ l < n, a ≠ ya l) → forN n (fun k m => store m (ya k) (h k m)) m a = m a) := by
  have := upd_fold ya h (List.range n) List.nodup_range (by simpa using hi) (by simpa using hl) m
  simpa [forN] using this

omit [CommRing K] in
/-- nested loop of stores at distinct addresses. -/
theorem forN_store2 (n c : Nat) (ya : Nat → Nat → Nat) (h : Nat → Nat → Mem K → K)
    (hi : ∀ j < n, ∀ i < c, ∀ j' < n, ∀ i' < c, ya j i = ya j' i' → j = j' ∧ i = i')
    (hl : ∀ j < n, ∀ i < c, ∀ m m' : Mem K,
      (∀ a, (∀ j' < n, ∀ i' < c, (j', i') ≠ (j, i) → a ≠ ya j' i') → m a = m' a) → h j i m = h j i m')
    (m : Mem K) :
    let F := forN n (fun j m => forN c (fun i m => store m (ya j i) (h j i m)) m) m
    (∀ j < n, ∀ i < c, F (ya j i) = h j i m) ∧
    (∀ a, (∀ j < n, ∀ i < c, a ≠ ya j i) → F a = m a) := by
  intro F
  have hF : F = (List.range n ×ˢ List.range c).foldl
      (fun m p => store m (ya p.1 p.2) (h p.1 p.2 m)) m := forN_nest _ _ _ _
  have hm : ∀ p : Nat × Nat, p ∈ List.range n ×ˢ List.range c ↔ p.1 < n ∧ p.2 < c := by
    rintro ⟨a, b⟩; simp
  obtain ⟨h1, h2⟩ := upd_fold (K := K) (fun p : Nat × Nat => ya p.1 p.2) (fun p => h p.1 p.2)
    (List.range n ×ˢ List.range c) (List.nodup_range.product List.nodup_range)
    (fun a ha b hb e => by
      have := hi _ ((hm a).1 ha).1 _ ((hm a).1 ha).2 _ ((hm b).1 hb).1 _ ((hm b).1 hb).2 e
      exact Prod.ext this.1 this.2)
    (fun k hk m m' hmm => hl _ ((hm k).1 hk).1 _ ((hm k).1 hk).2 m m' (fun a ha => hmm a
      (fun l hlm hne => ha _ ((hm l).1 hlm).1 _ ((hm l).1 hlm).2 hne)))
    m
  refine ⟨fun j hj i hi' => ?_, fun a ha => ?_⟩
  · rw [hF]; exact h1 (j, i) ((hm _).2 ⟨hj, hi'⟩)
  · rw [hF]; exact h2 a (fun l hl' => ha _ ((hm l).1 hl').1 _ ((hm l).1 hl').2)

theorem vref_inj {v : DVec} (h : 0 < v.inc) {a b : Nat} (e : v.ref a = v.ref b) : a = b := by
  simp only [DVec.ref, Nat.add_left_cancel_iff] at e
  exact Nat.eq_of_mul_eq_mul_right h e

theorem mref_inj {M : DMat} (h : M.rows ≤ M.ld) {i j i' j' : Nat} (hi : i < M.rows) (hi' : i' < M.rows)
    (e : M.ref i j = M.ref i' j') : j = j' ∧ i = i' := by
  simp only [DMat.ref, Nat.add_left_cancel_iff] at e
  have h1 : (M.ld * j + i) % M.ld = (M.ld * j' + i') % M.ld := by rw [e]
  rw [Nat.mul_add_mod, Nat.mul_add_mod, Nat.mod_eq_of_lt (by omega), Nat.mod_eq_of_lt (by omega)] at h1
  subst h1
  exact ⟨Nat.eq_of_mul_eq_mul_left (by omega) (by omega : M.ld * j = M.ld * j'), rfl⟩

end Verif.Mat
