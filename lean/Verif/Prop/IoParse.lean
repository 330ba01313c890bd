import Verif.Model.Io
import Mathlib.Data.List.Basic
import Mathlib.Tactic.Linarith
import Mathlib.Tactic.NormNum
import Mathlib.Tactic.Ring

/-!
# C78: reading vectors and matrices from text

Specification: the numbers of a line, as a relation that does not mention buffers or counts, and the
data lines of a file.
-/

namespace Verif.Io

/-- `vs` are the numbers at the beginning of `s`: up to a comment or something that is no number. -/
inductive Nums (cv : Conv) : List Char → List ℝ → Prop where
  | comment (s) : Nums cv ('#' :: s) []
  | stop (s) : s.head? ≠ some '#' → cv s = none → Nums cv s []
  | num (s v e vs) : s.head? ≠ some '#' → cv s = some (v, e) → Nums cv (skipblank e) vs → Nums cv s (v :: vs)

/-- The conversion consumes what it converts, as `strtod` does. -/
def Consumes (cv : Conv) : Prop := ∀ s v e, cv s = some (v, e) → e.length < s.length

theorem isComment_iff (s : List Char) : isComment s = true ↔ s.head? = some '#' := by
  cases s <;> simp [isComment]

/-- Every line has exactly one list of numbers. -/
theorem nums_exists {cv : Conv} (hc : Consumes cv) (s : List Char) : ∃ vs, Nums cv s vs := by
  induction hn : s.length using Nat.strong_induction_on generalizing s with
  | _ n ih =>
    by_cases h : s.head? = some '#'
    · cases s with
      | nil => simp at h
      | cons c s => simp at h; subst h; exact ⟨_, .comment s⟩
    · cases hv : cv s with
      | none => exact ⟨_, .stop s h hv⟩
      | some p =>
        obtain ⟨v, e⟩ := p
        have hl : (skipblank e).length ≤ e.length := (List.dropWhile_sublist _).length_le
        obtain ⟨vs, hvs⟩ := ih (skipblank e).length (by have := hc s v e hv; omega) _ rfl
        exact ⟨_, .num s v e vs h hv hvs⟩

theorem nums_unique {cv : Conv} {s : List Char} {vs ws : List ℝ} (h : Nums cv s vs) (h' : Nums cv s ws) :
    vs = ws := by
  induction h generalizing ws with
  | comment s => cases h' <;> simp_all
  | stop s h hv => cases h' <;> simp_all
  | num s v e vs h hv hr ih =>
    cases h' with
    | comment s => simp at h
    | stop s _ hv' => rw [hv] at hv'; simp at hv'
    | num s v' e' vs' _ hv' hr' =>
      rw [hv] at hv'
      obtain ⟨rfl, rfl⟩ : v = v' ∧ e = e' := by simpa using hv'
      rw [ih hr']

/-- What the loop stores. -/
theorem parseLoop_spec {cv : Conv} {s : List Char} {vs : List ℝ} (h : Nums cv s vs) :
    ∀ (b : Buf) (x inc k i : Nat), 0 < inc → (∀ j < i + k, x + j * inc < b.cap) →
    ∃ b' p, parseLoop cv b x inc k i s = some (b', i + min k vs.length, p) ∧ b'.cap = b.cap ∧
      (∀ j (hj : j < vs.length), j < k → b'.val (x + (i + j) * inc) = vs[j]) ∧
      (∀ y, (∀ j < k, j ≤ vs.length → y ≠ x + (i + j) * inc) → b'.val y = b.val y) := by
  induction h with
  | comment s =>
    intro b x inc k i _ hcap
    cases k with
    | zero => exact ⟨b, _, rfl, rfl, by simp, fun _ _ => rfl⟩
    | succ k => exact ⟨b, '#' :: s, by simp [parseLoop, isComment], rfl, by simp, fun _ _ => rfl⟩
  | stop s h hv =>
    intro b x inc k i _ hcap
    cases k with
    | zero => exact ⟨b, _, rfl, rfl, by simp, fun _ _ => rfl⟩
    | succ k =>
      have h0 : isComment s = false := by
        rw [← Bool.not_eq_true, isComment_iff]; exact h
      refine ⟨⟨b.cap, fun y => if y = x + i * inc then 0 else b.val y⟩, s, ?_, rfl, by simp, ?_⟩
      · simp only [parseLoop, h0, hv, Buf.set]
        rw [if_pos (hcap i (by omega))]
        simp
      · intro y hy
        have := hy 0 (by omega) (by simp)
        simp only
        rw [if_neg (by simpa using this)]
  | num s v e vs h hv hr ih =>
    intro b x inc k i hinc hcap
    cases k with
    | zero => exact ⟨b, s, by simp [parseLoop], rfl, by simp, fun _ _ => rfl⟩
    | succ k =>
      have h0 : isComment s = false := by
        rw [← Bool.not_eq_true, isComment_iff]; exact h
      obtain ⟨b', p, h1, h2, h3, h4⟩ := ih ⟨b.cap, fun y => if y = x + i * inc then v else b.val y⟩ x inc k
        (i + 1) hinc (fun j hj => hcap j (by omega))
      refine ⟨b', p, ?_, h2, ?_, ?_⟩
      · simp only [parseLoop, h0, hv, Buf.set]
        rw [if_pos (hcap i (by omega))]
        simp only [Option.bind_some, List.length_cons, Bool.false_eq_true, if_false]
        rw [h1]
        congr 3
        omega
      · intro j hj hjk
        cases j with
        | zero =>
          rw [h4]
          · simp
          · intro j' hj' _ e
            have := Nat.add_left_cancel e
            have := Nat.eq_of_mul_eq_mul_right hinc this
            omega
        | succ j =>
          have := h3 j (by simpa using hj) (by omega)
          rw [show i + (j + 1) = i + 1 + j by omega]
          simpa using this
      · intro y hy
        rw [h4]
        · simp only
          rw [if_neg]
          have := hy 0 (by omega) (by simp)
          simpa using this
        · intro j hj hjl
          have := hy (j + 1) (by omega) (by simpa using hjl)
          rwa [show i + (j + 1) = i + 1 + j by omega] at this

/-- **C78**, `aa_io_parsevector`: with room for `n` elements it stores the numbers of the line, at most
`n`, and returns how many; nothing else changes but the next element (a failed conversion stores zero). -/
theorem C78_parsevector (cv : Conv) (s : List Char) (vs : List ℝ) (h : Nums cv s vs) (n : Nat) (b : Buf)
    (x inc : Nat) (hinc : 0 < inc) (hcap : ∀ j < n, x + j * inc < b.cap) :
    ∃ b' p, parsevector cv s n b x inc = some (b', min n vs.length, p) ∧ b'.cap = b.cap ∧
      (∀ j (hj : j < vs.length), j < n → b'.val (x + j * inc) = vs[j]) ∧
      (∀ y, (∀ j < n, j ≤ vs.length → y ≠ x + j * inc) → b'.val y = b.val y) := by
  obtain ⟨b', p, h1, h2, h3, h4⟩ := parseLoop_spec h b x inc n 0 hinc (by simpa using hcap)
  refine ⟨b', p, by rw [parsevector, h1, Nat.zero_add], h2, fun j hj hn => ?_, fun y hy => ?_⟩
  · simpa using h3 j hj hn
  · exact h4 y (by simpa using hy)

/-! ### Matrices with a line per row -/

/-- **C78**, `aa_io_fread_matrix_fix`: row `i` of the matrix receives the numbers of line `i`, and the
result is the number of elements stored. -/
theorem readFix_spec (cv : Conv) (n lda : Nat) (hlda : 0 < lda) (vs : List (List ℝ)) :
    ∀ (ls : List (List Char)) (m i cnt : Nat) (b : Buf), List.Forall₂ (Nums cv) ls vs → ls.length = m →
    i + m ≤ lda → (∀ r j, r < i + m → j < n → r + j * lda < b.cap) →
    ∃ b', readFix cv n lda b cnt i m ls = some (b', cnt + (vs.map fun v => min n v.length).sum) ∧
      b'.cap = b.cap ∧
      (∀ r (hr : r < vs.length), ∀ j (hj : j < vs[r].length), j < n →
        b'.val (i + r + j * lda) = vs[r][j]) ∧
      (∀ y, (∀ r < m, ∀ j < n, y ≠ i + r + j * lda) → b'.val y = b.val y) := by
  induction vs with
  | nil =>
    intro ls m i cnt b h hm _ _
    cases h
    simp only [List.length_nil] at hm
    subst hm
    exact ⟨b, by simp [readFix], rfl, by simp, fun _ _ => rfl⟩
  | cons v vs ih =>
    intro ls m i cnt b h hm hrow hcap
    cases h with
    | cons h1 h2 =>
      rename_i l ls
      simp only [List.length_cons] at hm
      subst hm
      obtain ⟨b1, p, e1, c1, v1, f1⟩ := C78_parsevector cv l v h1 n b i lda hlda
        (fun j hj => hcap i j (by omega) hj)
      obtain ⟨b2, e2, c2, v2, f2⟩ := ih ls ls.length (i + 1) (cnt + min n v.length) b1 h2 rfl (by omega)
        (fun r j hr hj => by rw [c1]; exact hcap r j (by omega) hj)
      have hinj : ∀ r j r' j', r < lda → r' < lda → r + j * lda = r' + j' * lda → r = r' := by
        intro r j r' j' h h' e
        have := congrArg (· % lda) e
        simpa [Nat.add_mul_mod_self_right, Nat.mod_eq_of_lt h, Nat.mod_eq_of_lt h'] using this
      refine ⟨b2, ?_, c2.trans c1, ?_, ?_⟩
      · simp only [readFix, List.headD_cons, List.tail_cons, e1, Option.bind_some, e2, List.map_cons,
          List.sum_cons]
        rw [Nat.add_assoc]
      · intro r hr j hj hjn
        cases r with
        | zero =>
          simp only [List.getElem_cons_zero] at hj ⊢
          rw [f2, Nat.add_zero, v1 j hj hjn]
          intro r' hr' j' _ e
          have := hinj _ _ _ _ (by omega) (by omega) e
          omega
        | succ r =>
          simp only [List.getElem_cons_succ] at hj ⊢
          have := v2 r (by simpa using hr) j hj hjn
          rwa [show i + (r + 1) = i + 1 + r by omega]
      · intro y hy
        rw [f2, f1]
        · intro j hj _
          simpa using hy 0 (by omega) j hj
        · intro r hr j hj
          have := hy (r + 1) (by omega) j hj
          rwa [show i + (r + 1) = i + 1 + r by omega] at this

/-- **C78**, `aa_io_fread_matrix_fix`: row `r` of the matrix receives the numbers of line `r`, elements
outside of the rows are unchanged, and the result is the number of elements read. -/
theorem C78_fread_matrix_fix (cv : Conv) (m n lda : Nat) (hlda : m ≤ lda) (hpos : 0 < lda)
    (ls : List (List Char)) (vs : List (List ℝ)) (h : List.Forall₂ (Nums cv) ls vs) (hm : ls.length = m)
    (b : Buf) (hcap : ∀ r j, r < m → j < n → r + j * lda < b.cap) :
    ∃ b', readFix cv n lda b 0 0 m ls = some (b', (vs.map fun v => min n v.length).sum) ∧
      (∀ r (hr : r < vs.length), ∀ j (hj : j < vs[r].length), j < n → b'.val (r + j * lda) = vs[r][j]) ∧
      (∀ y, (∀ r < m, ∀ j < n, y ≠ r + j * lda) → b'.val y = b.val y) := by
  obtain ⟨b', h1, -, h3, h4⟩ := readFix_spec cv n lda hpos vs ls m 0 0 b h hm (by omega)
    (by simpa using hcap)
  exact ⟨b', by simpa using h1, by simpa using h3, by simpa using h4⟩

/-! ### Matrices with a line per column -/

/-- A line with data: after blanks it neither ends nor starts a comment. -/
def Data (l : List Char) : Prop := skipblank l ≠ [] ∧ (skipblank l).head? ≠ some '#'

instance (l : List Char) : Decidable (Data l) := by unfold Data; infer_instance

/-- The lines with data. -/
def dataLines (ls : List (List Char)) : List (List Char) := ls.filter fun l => decide (Data l)

theorem readHeap_spec (cv : Conv) (n : Nat) (hn : 0 < n) (f : List Char → List ℝ)
    (hf : ∀ l, Nums cv (skipblank l) (f l)) (ls : List (List Char)) :
    ∀ (b : Buf) (k c : Nat), n ≤ b.cap → c * n ≤ b.cap →
    ((∀ l ∈ dataLines ls, n ≤ (f l).length) →
      ∃ b', readHeap cv n b k (c * n) ls = some (b', .cols (c + (dataLines ls).length)) ∧
        (c + (dataLines ls).length) * n ≤ b'.cap ∧ b.cap ≤ b'.cap ∧
        (∀ y < c * n, b'.val y = b.val y) ∧
        (∀ d (hd : d < (dataLines ls).length), ∀ j (hj : j < (f (dataLines ls)[d]).length), j < n →
          b'.val ((c + d) * n + j) = (f (dataLines ls)[d])[j])) ∧
    ((∃ l ∈ dataLines ls, (f l).length < n) →
      ∃ b' t, ∃ ht : t < ls.length, readHeap cv n b k (c * n) ls = some (b', .bad (k + t + 1)) ∧
        Data ls[t] ∧ (f ls[t]).length < n ∧
        ∀ u (hu : u < t), Data ls[u] → n ≤ (f ls[u]).length) := by
  induction ls with
  | nil =>
    intro b k c h1 h2
    refine ⟨fun _ => ⟨b, ?_, ?_, le_refl _, fun _ _ => rfl, ?_⟩, fun ⟨l, hl, _⟩ => ?_⟩
    · simp only [readHeap]
      rw [if_neg (by omega), Nat.mul_div_cancel _ hn]
      simp [dataLines]
    · simpa [dataLines] using h2
    · intro d hd; simp [dataLines] at hd
    · simp [dataLines] at hl
  | cons l ls ih =>
    intro b k c h1 h2
    by_cases hD : Data l
    · -- a line with data
      have hcond : ¬ (skipblank l = [] ∨ isComment (skipblank l) = true) := by
        rw [isComment_iff]; exact not_or.2 hD
      have hdl : dataLines (l :: ls) = l :: dataLines ls := by simp [dataLines, hD]
      obtain ⟨b0, hb0, hc0, hv0⟩ : ∃ b0, b0 = (if b.cap < c * n + n then { b with cap := b.cap * 2 } else b) ∧
          (c * n + n ≤ b0.cap ∧ b.cap ≤ b0.cap) ∧ b0.val = b.val := by
        refine ⟨_, rfl, ?_, ?_⟩
        · split_ifs
          · show c * n + n ≤ b.cap * 2 ∧ b.cap ≤ b.cap * 2; omega
          · omega
        · split_ifs <;> rfl
      obtain ⟨b1, p, e1, e2, e3, e4⟩ := C78_parsevector cv (skipblank l) (f l) (hf l) n b0 (c * n) 1 one_pos
        (fun j hj => by omega)
      have hstep : readHeap cv n b k (c * n) (l :: ls) =
          if min n (f l).length ≠ n then some (b1, .bad (k + 1))
          else readHeap cv n b1 (k + 1) (c * n + min n (f l).length) ls := by
        simp only [readHeap]
        rw [if_neg hcond, ← hb0, e1]
        simp only [Option.bind_some]
      by_cases hlen : n ≤ (f l).length
      · have hmin : min n (f l).length = n := Nat.min_eq_left hlen
        rw [hmin, if_neg (by simp), show c * n + n = (c + 1) * n by ring] at hstep
        obtain ⟨i1, i2⟩ := ih b1 (k + 1) (c + 1) (by omega) (by rw [e2]; linarith [hc0.1])
        constructor
        · intro hall
          rw [hdl] at hall
          obtain ⟨b', r1, r2, r3, r4, r5⟩ := i1 (fun l' hl' => hall l' (List.mem_cons_of_mem _ hl'))
          refine ⟨b', ?_, ?_, by omega, ?_, ?_⟩
          · rw [hstep, r1, hdl, List.length_cons]; congr 3; omega
          · rw [hdl, List.length_cons]
            rwa [show c + ((dataLines ls).length + 1) = c + 1 + (dataLines ls).length by omega]
          · intro y hy
            rw [r4 y (by nlinarith), e4 y (fun j _ _ => by omega), hv0]
          · intro d hd j hj hjn
            cases d with
            | zero =>
              simp only [hdl, List.getElem_cons_zero] at hj ⊢
              rw [Nat.add_zero, r4 _ (by nlinarith)]
              have := e3 j hj hjn
              simpa using this
            | succ d =>
              simp only [hdl, List.getElem_cons_succ] at hj ⊢
              have := r5 d (by simpa [hdl] using hd) j hj hjn
              rwa [show c + (d + 1) = c + 1 + d by omega]
        · rintro ⟨l', hl', hbad⟩
          rw [hdl] at hl'
          rcases List.mem_cons.1 hl' with rfl | hl'
          · omega
          · obtain ⟨b', t, ht, r1, r2, r3, r4⟩ := i2 ⟨l', hl', hbad⟩
            refine ⟨b', t + 1, by simpa using ht, ?_, by simpa using r2, by simpa using r3, ?_⟩
            · rw [hstep, r1]; congr 3; omega
            · intro u hu
              cases u with
              | zero => intro _; simpa using hlen
              | succ u => simpa using r4 u (by omega)
      · have hmin : min n (f l).length ≠ n := by omega
        rw [if_pos hmin] at hstep
        constructor
        · intro hall
          exact absurd (hall l (by rw [hdl]; simp)) hlen
        · intro _
          exact ⟨b1, 0, by simp, by rw [hstep], by simpa using hD, by simpa using hlen,
            fun u hu => by omega⟩
    · -- nothing on this line
      have hcond : skipblank l = [] ∨ isComment (skipblank l) = true := by
        rw [isComment_iff]; by_contra h; exact hD (not_or.1 h)
      have hdl : dataLines (l :: ls) = dataLines ls := by simp [dataLines, hD]
      have hstep : readHeap cv n b k (c * n) (l :: ls) = readHeap cv n b (k + 1) (c * n) ls := by
        simp only [readHeap]
        rw [if_pos hcond]
      obtain ⟨i1, i2⟩ := ih b (k + 1) c h1 h2
      constructor
      · intro hall
        obtain ⟨b', r⟩ := i1 (by rwa [hdl] at hall)
        refine ⟨b', ?_⟩
        simp only [hdl, hstep]
        exact r
      · intro hex
        obtain ⟨b', t, ht, r1, r2, r3, r4⟩ := i2 (by rwa [hdl] at hex)
        refine ⟨b', t + 1, by simpa using ht, ?_, by simpa using r2, by simpa using r3, ?_⟩
        · rw [hstep, r1]; congr 3; omega
        · intro u hu
          cases u with
          | zero => intro h; exact absurd (by simpa using h) hD
          | succ u => simpa using r4 u (by omega)

/-- The buffer on entry: a new one for a null pointer or no elements. -/
theorem start_buf (n : Nat) (A : Option Buf) : ∃ b : Buf, (∀ cv ls, freadMatrixHeap cv n A ls = readHeap cv n b 0 0 ls) ∧
    (b.cap = n ∨ A = some b) := by
  cases A with
  | none => exact ⟨_, fun _ _ => rfl, .inl rfl⟩
  | some b =>
    by_cases h : b.cap = 0
    · exact ⟨⟨n, fun _ => 0⟩, fun _ _ => by simp [freadMatrixHeap, h], .inl rfl⟩
    · exact ⟨b, fun _ _ => by simp [freadMatrixHeap, h], .inr rfl⟩

/-- **C78 (partial)**, `aa_io_fread_matrix_heap`: with `n > 0`, and no buffer or one of at least `n`
elements on entry, no write is out of bounds; if every line with data has `n` numbers, the result is the
number of these lines and column `d` of the matrix holds the first `n` numbers of line `d`; otherwise the
result is the number of the first line with too few. -/
theorem C78_fread_matrix_heap_partial (cv : Conv) (hcv : Consumes cv) (n : Nat) (hn : 0 < n)
    (A : Option Buf) (hA : ∀ b, A = some b → b.cap = 0 ∨ n ≤ b.cap) (ls : List (List Char)) :
    ((∀ l ∈ dataLines ls, ∃ vs, Nums cv (skipblank l) vs ∧ n ≤ vs.length) →
      ∃ b', freadMatrixHeap cv n A ls = some (b', .cols (dataLines ls).length) ∧
        (dataLines ls).length * n ≤ b'.cap ∧
        ∀ d (hd : d < (dataLines ls).length) vs, Nums cv (skipblank (dataLines ls)[d]) vs →
          ∀ j (hj : j < vs.length), j < n → b'.val (d * n + j) = vs[j]) ∧
    ((∃ l ∈ dataLines ls, ∃ vs, Nums cv (skipblank l) vs ∧ vs.length < n) →
      ∃ b' t, ∃ ht : t < ls.length, freadMatrixHeap cv n A ls = some (b', .bad (t + 1)) ∧
        (Data ls[t] ∧ ∃ vs, Nums cv (skipblank ls[t]) vs ∧ vs.length < n) ∧
        ∀ u (hu : u < t), Data ls[u] → ∃ vs, Nums cv (skipblank ls[u]) vs ∧ n ≤ vs.length) := by
  obtain ⟨b, hb, hbn⟩ := start_buf n A
  have hcap : n ≤ b.cap := by
    rcases hbn with h | h
    · omega
    · rcases hA b h with h0 | h0
      · have hb0 := hb (fun _ => none) []
        rw [h] at hb0
        simp only [freadMatrixHeap, h0, if_true, readHeap] at hb0
        rw [if_neg (by omega), if_neg (by omega)] at hb0
        have := (Prod.mk.inj (Option.some.inj hb0)).1
        rw [← this]
      · exact h0
  choose f hf using fun l : List Char => nums_exists hcv (skipblank l)
  obtain ⟨h1, h2⟩ := readHeap_spec cv n hn f hf ls b 0 0 hcap (by omega)
  constructor
  · intro hall
    obtain ⟨b', r1, r2, -, -, r5⟩ := h1 (fun l hl => by
      obtain ⟨vs, hvs, hlen⟩ := hall l hl
      rwa [nums_unique (hf l) hvs])
    refine ⟨b', ?_, by simpa using r2, ?_⟩
    · rw [hb]; simpa using r1
    · intro d hd vs hvs j hj hjn
      obtain rfl := nums_unique (hf _) hvs
      simpa using r5 d hd j hj hjn
  · rintro ⟨l, hl, vs, hvs, hlen⟩
    obtain ⟨b', t, ht, r1, r2, r3, r4⟩ := h2 ⟨l, hl, by rwa [nums_unique (hf l) hvs]⟩
    refine ⟨b', t, ht, ?_, ⟨r2, _, hf _, r3⟩, fun u hu hD => ⟨_, hf _, r4 u hu hD⟩⟩
    rw [hb]; simpa using r1

/-- A small conversion function: a digit after blanks. -/
def digit : Conv := fun s => match skipblank s with
  | [] => none
  | c :: e => if c.isDigit then some (((c.toNat - 48 : Nat) : ℝ), e) else none

theorem digit_consumes : Consumes digit := by
  intro s v e h
  have hl : (skipblank s).length ≤ s.length := (List.dropWhile_sublist _).length_le
  unfold digit at h
  split at h
  · simp at h
  · rename_i c e' hs
    split_ifs at h
    obtain ⟨-, rfl⟩ : _ ∧ e' = e := by simpa using h
    rw [hs] at hl
    simp only [List.length_cons] at hl
    omega

/-- The line `1 2 3 # x`. -/
def l123 : List Char := ['1', ' ', '2', ' ', '3', ' ', '#', 'x']

theorem nums123 : Nums digit l123 [1, 2, 3] := by
  refine .num _ 1 [' ', '2', ' ', '3', ' ', '#', 'x'] _ (by decide) (by
    simp [digit, l123, skipblank, Char.isDigit]) ?_
  refine .num _ 2 [' ', '3', ' ', '#', 'x'] _ (by decide) (by
    simp [digit, skipblank, Char.isDigit]) ?_
  refine .num _ 3 [' ', '#', 'x'] _ (by decide) (by
    simp [digit, skipblank, Char.isDigit]) ?_
  exact .comment _

/-- **C78 is violated by `aa_io_fread_matrix_heap`** when the caller's buffer has fewer elements than a
line: the capacity is doubled once, whatever is needed. Three numbers are written to two elements. -/
theorem C78_violates_small_buffer :
    freadMatrixHeap digit 3 (some ⟨1, fun _ => 0⟩) [l123] = none := by
  have h0 : skipblank l123 = l123 := by decide
  have h1 : digit l123 = some (1, [' ', '2', ' ', '3', ' ', '#', 'x']) := by
    simp [digit, l123, skipblank, Char.isDigit]
  have h2 : skipblank [' ', '2', ' ', '3', ' ', '#', 'x'] = ['2', ' ', '3', ' ', '#', 'x'] := by decide
  have h3 : digit ['2', ' ', '3', ' ', '#', 'x'] = some (2, [' ', '3', ' ', '#', 'x']) := by
    simp [digit, skipblank, Char.isDigit]
  have h4 : skipblank [' ', '3', ' ', '#', 'x'] = ['3', ' ', '#', 'x'] := by decide
  have h5 : digit ['3', ' ', '#', 'x'] = some (3, [' ', '#', 'x']) := by
    simp [digit, skipblank, Char.isDigit]
  have c0 : isComment l123 = false := by decide
  have n0 : l123 ≠ [] := by decide
  have c1 : isComment ['2', ' ', '3', ' ', '#', 'x'] = false := by decide
  have c2 : isComment ['3', ' ', '#', 'x'] = false := by decide
  simp [freadMatrixHeap, readHeap, h0, n0, parsevector, parseLoop, c0, c1, c2, h1, h2, h3, h4, h5, Buf.set]

/-- With a buffer of one line the same file is read. -/
example : ∃ b', freadMatrixHeap digit 3 none [l123] = some (b', .cols 1) ∧ b'.val 2 = 3 := by
  have hd : dataLines [l123] = [l123] := by decide
  have h0 : skipblank l123 = l123 := by decide
  obtain ⟨b', h1, -, h3⟩ := (C78_fread_matrix_heap_partial digit digit_consumes 3 (by norm_num) none
    (by simp) [l123]).1 (by
      intro l hl
      rw [hd] at hl
      obtain rfl : l = l123 := by simpa using hl
      exact ⟨_, by rw [h0]; exact nums123, by simp⟩)
  refine ⟨b', by rw [h1, hd]; rfl, ?_⟩
  have := h3 0 (by rw [hd]; simp) [1, 2, 3] (by
    simp only [hd, List.getElem_cons_zero]; rw [h0]; exact nums123) 2 (by simp) (by norm_num)
  simpa using this

/-- **C78 is violated for empty lines**: with `n = 0` the result is a division by zero. -/
theorem C78_violates_zero (cv : Conv) (A : Option Buf) : freadMatrixHeap cv 0 A [] = none := by
  cases A <;> simp [freadMatrixHeap, readHeap]

end Verif.Io
