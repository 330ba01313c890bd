import Verif.Model.Wf
import Mathlib.Tactic.IntervalCases
import Mathlib.Tactic.FieldSimp
import Mathlib.Tactic.Ring
import Mathlib.Tactic.NormNum
import Mathlib.Data.Nat.Digits.Defs
import Mathlib.Data.List.Induction
import Mathlib.Data.List.Nodup
import Mathlib.Data.List.TakeWhile

/-!
# C62: Wavefront numbers and material indices
-/

namespace Verif.Wf

/-! ## Numbers -/

/-- A number as the scanner recognizes it (wavefront.l 97-99): a sign, digits, a fraction and an
exponent, each number a list of decimal digits. -/
structure Token where
  neg : Bool
  int : List Nat
  frac : Option (List Nat)
  exp : Option (Bool × List Nat)

/-- Digits are below ten and the integer part and the exponent are not empty. -/
def Token.Ok (t : Token) : Prop :=
  (∀ d ∈ t.int, d < 10) ∧ t.int ≠ [] ∧ (∀ f ∈ t.frac, ∀ d ∈ f, d < 10) ∧
  ∀ e ∈ t.exp, e.2 ≠ [] ∧ ∀ d ∈ e.2, d < 10

/-- The character of a digit. -/
def chr (d : Nat) : Char := Char.ofNat (48 + d)

/-- How a number is written. -/
def Token.text (t : Token) : List Char :=
  (if t.neg then ['-'] else []) ++ t.int.map chr ++
  (match t.frac with | some f => '.' :: f.map chr | none => []) ++
  (match t.exp with | some (n, e) => 'e' :: (if n then ['-'] else []) ++ e.map chr | none => [])

/-- The value of digits, most significant first. -/
def digitsVal (l : List Nat) : Nat := Nat.ofDigits 10 l.reverse

/-- The value of a number. -/
def Token.value (t : Token) : Rat :=
  (if t.neg then -1 else 1) *
  ((digitsVal t.int : Rat) +
    (match t.frac with | some f => (digitsVal f : Rat) / 10 ^ f.length | none => 0)) *
  (match t.exp with
    | some (n, e) => if n then 1 / 10 ^ digitsVal e else 10 ^ digitsVal e
    | none => 1)

theorem chr_cases {d : Nat} (h : d < 10) : (chr d).isDigit = true ∧ digitVal (chr d) = d ∧
    isSpace (chr d) = false ∧ isBlank (chr d) = false ∧ chr d ≠ '-' ∧ chr d ≠ '+' := by
  interval_cases d <;> decide

theorem accum_map (l : List Nat) (h : ∀ d ∈ l, d < 10) : accum (l.map chr) = digitsVal l := by
  have key : ∀ (l : List Nat) (a : Nat), (∀ d ∈ l, d < 10) →
      (l.map chr).foldl (fun a c => 10 * a + digitVal c) a = 10 ^ l.length * a + digitsVal l := by
    intro l
    induction l with
    | nil => intro a _; simp [digitsVal]
    | cons d l ih =>
      intro a hd
      rw [List.map_cons, List.foldl_cons, ih _ (fun x hx => hd x (by simp [hx])),
        (chr_cases (hd d (by simp))).2.1]
      simp only [digitsVal, List.reverse_cons, Nat.ofDigits_append, Nat.ofDigits_singleton,
        List.length_reverse, List.length_cons]
      ring
  rw [accum, key l 0 h]
  simp

theorem takeWhile_digits (l : List Nat) (h : ∀ d ∈ l, d < 10) (rest : List Char)
    (hr : ∀ c ∈ rest.head?, c.isDigit = false) :
    (l.map chr ++ rest).takeWhile Char.isDigit = l.map chr ∧
    (l.map chr ++ rest).dropWhile Char.isDigit = rest := by
  induction l with
  | nil =>
    cases rest with
    | nil => simp
    | cons c cs =>
      have := hr c (by simp)
      simp [this]
  | cons d l ih =>
    obtain ⟨h1, h2⟩ := ih (fun x hx => h x (by simp [hx]))
    have hd := (chr_cases (h d (by simp))).1
    simp [hd, h1, h2]

/-- `strtol` on an unsigned number. -/
theorem strtol_digits (l : List Nat) (hl : l ≠ []) (h : ∀ d ∈ l, d < 10) (rest : List Char)
    (hr : ∀ c ∈ rest.head?, c.isDigit = false) :
    strtol (l.map chr ++ rest) = (clampLong (digitsVal l), rest) := by
  obtain ⟨d, l', rfl⟩ := List.exists_cons_of_ne_nil hl
  obtain ⟨-, -, c3, -, c5, c6⟩ := chr_cases (h d (by simp))
  have e1 : ((d :: l').map chr ++ rest).dropWhile isSpace = (d :: l').map chr ++ rest := by
    simp [c3]
  have e2 : takeSign ((d :: l').map chr ++ rest) = (false, (d :: l').map chr ++ rest) := by
    simp only [List.map_cons, List.cons_append]
    unfold takeSign
    split
    · rename_i h1; simp only [List.cons.injEq] at h1; exact absurd h1.1 c5
    · rename_i h1; simp only [List.cons.injEq] at h1; exact absurd h1.1 c6
    · rfl
  obtain ⟨t1, t2⟩ := takeWhile_digits _ h rest hr
  unfold strtol
  rw [e1, e2]
  simp only [t1, t2]
  rw [if_neg (by simp), accum_map _ h]
  rfl

/-- `strtol` on a negative number. -/
theorem strtol_neg (l : List Nat) (hl : l ≠ []) (h : ∀ d ∈ l, d < 10) (rest : List Char)
    (hr : ∀ c ∈ rest.head?, c.isDigit = false) :
    strtol ('-' :: (l.map chr ++ rest)) = (clampLong (-(digitsVal l : Int)), rest) := by
  have e1 : ('-' :: (l.map chr ++ rest)).dropWhile isSpace = '-' :: (l.map chr ++ rest) := by
    simp [isSpace]
  obtain ⟨t1, t2⟩ := takeWhile_digits _ h rest hr
  unfold strtol
  rw [e1]
  simp only [takeSign, t1, t2]
  rw [if_neg (by simpa using hl), accum_map _ h]
  rfl

theorem divTen_eq (k : Nat) (x : Rat) : divTen k x = x / 10 ^ k := by
  induction k generalizing x with
  | zero => simp [divTen]
  | succ k ih => rw [divTen, ih, pow_succ]; field_simp

theorem clampLong_eq {i : Int} (h1 : -2 ^ 63 < i) (h2 : i < 2 ^ 63) : clampLong i = i := by
  unfold clampLong
  omega

/-- The integer part, with its sign. -/
theorem strtol_int (neg : Bool) (l : List Nat) (hl : l ≠ []) (h : ∀ d ∈ l, d < 10)
    (rest : List Char) (hr : ∀ c ∈ rest.head?, c.isDigit = false) (hlong : digitsVal l < 2 ^ 63) :
    strtol ((if neg then ['-'] else []) ++ l.map chr ++ rest) =
      (if neg then -(digitsVal l : Int) else digitsVal l, rest) := by
  cases neg with
  | true =>
    simp only [if_true, List.cons_append, List.nil_append]
    rw [strtol_neg l hl h rest hr, clampLong_eq (by omega) (by omega)]
  | false =>
    simp only [Bool.false_eq_true, if_false, List.nil_append]
    rw [strtol_digits l hl h rest hr, clampLong_eq (by omega) (by omega)]

theorem blanks_digit {b : List Char} (hb : ∀ c ∈ b, isBlank c = true) :
    ∀ c ∈ b.head?, c.isDigit = false ∧ c ≠ '.' := by
  intro c hc
  have := hb c (List.mem_of_mem_head? hc)
  simp only [isBlank, Bool.or_eq_true, decide_eq_true_eq] at this
  rcases this with rfl | rfl <;> decide

/-- **C62**, numbers without an exponent whose integer part and fraction fit a `long`, with blanks
before and after as in the scanner's tokens: the result is the value.  Missing: exponents, which are
ignored (`C62_violates_exponent`), and longer numbers (`C62_violates_long`). -/
theorem C62_float_partial (t : Token) (ht : t.Ok) (he : t.exp = none)
    (hi : digitsVal t.int < 2 ^ 63) (hf : ∀ f ∈ t.frac, digitsVal f < 2 ^ 63)
    (b b' : List Char) (hb : ∀ c ∈ b, isBlank c = true) (hb' : ∀ c ∈ b', isBlank c = true) :
    parseFloat (b ++ t.text ++ b') = t.value := by
  obtain ⟨neg, ip, fp, ex⟩ := t
  obtain ⟨o1, o2, o3, -⟩ := ht
  simp only at he hi hf o1 o2 o3
  subst he
  -- skipping blanks
  have hskip : ∀ rest : List Char,
      (b ++ ((if neg then ['-'] else []) ++ ip.map chr ++ rest)).dropWhile isBlank =
      (if neg then ['-'] else []) ++ ip.map chr ++ rest := by
    intro rest
    rw [List.dropWhile_append_of_pos (by exact hb)]
    obtain ⟨d, ip', rfl⟩ := List.exists_cons_of_ne_nil o2
    have c4 := (chr_cases (o1 d (by simp))).2.2.2.1
    cases neg
    · simp [c4]
    · simp [isBlank]
  have hhead : ∀ rest : List Char,
      (((if neg then ['-'] else []) ++ ip.map chr ++ rest).head? = some '-') ↔ neg = true := by
    intro rest
    obtain ⟨d, ip', rfl⟩ := List.exists_cons_of_ne_nil o2
    have c5 := (chr_cases (o1 d (by simp))).2.2.2.2.1
    cases neg
    · simp [c5]
    · simp
  cases fp with
  | none =>
    have htext : b ++ Token.text ⟨neg, ip, none, none⟩ ++ b' =
        b ++ ((if neg then ['-'] else []) ++ ip.map chr ++ b') := by
      simp [Token.text]
    rw [htext]
    unfold parseFloat
    rw [hskip]
    dsimp only
    rw [strtol_int neg ip o2 o1 b' (fun c hc => (blanks_digit hb' c hc).1) hi]
    dsimp only
    split
    · exact absurd rfl (blanks_digit hb' '.' (by simp)).2
    · cases neg <;> simp [Token.value]
  | some f =>
    have htext : b ++ Token.text ⟨neg, ip, some f, none⟩ ++ b' =
        b ++ ((if neg then ['-'] else []) ++ ip.map chr ++ ('.' :: (f.map chr ++ b'))) := by
      simp [Token.text]
    rw [htext]
    unfold parseFloat
    rw [hskip]
    dsimp only
    rw [strtol_int neg ip o2 o1 ('.' :: (f.map chr ++ b')) (by simp) hi]
    dsimp only
    simp only [hhead]
    have hfv := hf f rfl
    have hneg : neg = false → ¬ (((if neg = true then -(digitsVal ip : Int) else digitsVal ip : Int) : Rat) < 0) := by
      rintro rfl
      simp
    by_cases hfe : f = []
    · subst hfe
      have h0 : (strtol ([].map chr ++ b')).1 = 0 := by
        unfold strtol
        have hsp : b'.dropWhile isSpace = [] := by
          rw [List.dropWhile_eq_nil_iff]
          intro c hc
          have := hb' c hc
          simp only [isBlank, Bool.or_eq_true, decide_eq_true_eq] at this
          rcases this with rfl | rfl <;> decide
        simp [hsp, takeSign]
      rw [if_neg (by simpa using h0)]
      cases neg <;> simp [Token.value, digitsVal]
    · rw [strtol_digits f hfe (fun d hd => o3 f rfl d hd) b'
        (fun c hc => (blanks_digit hb' c hc).1), clampLong_eq (by omega) (by omega)]
      simp only [List.length_append, List.length_map, Nat.add_sub_cancel]
      have hlen : f.length ≠ 0 := by simpa using hfe
      rw [if_pos hlen, divTen_eq]
      by_cases hz : digitsVal f = 0
      · rw [if_neg (by simp [hz])]
        cases neg <;> simp [Token.value, hz]
      · rw [if_pos (by exact_mod_cast hz)]
        cases neg
        · rw [if_neg (by
            push Not
            exact ⟨not_lt.1 (hneg rfl), by simp⟩)]
          simp [Token.value]
        · rw [if_pos (Or.inr rfl)]
          simp [Token.value]
          ring

/-- **C62 fails** for exponents, which the scanner accepts: `1e3` is read as 1. -/
theorem C62_violates_exponent :
    let t : Token := ⟨false, [1], none, some (false, [3])⟩
    t.Ok ∧ t.text = "1e3".toList ∧ t.value = 1000 ∧ parseFloat t.text = 1 := by
  refine ⟨⟨by decide, by decide, by simp, ?_⟩, by decide, ?_, by decide⟩
  · simp
  · simp [Token.value, digitsVal]
    norm_num

/-- **C62 fails** for long fractions: `strtol` saturates.  `0.20000000000000000000` (twenty digits)
is read as less than 0.1. -/
theorem C62_violates_long :
    let t : Token := ⟨false, [0], some (2 :: List.replicate 19 0), none⟩
    t.Ok ∧ t.value = 1 / 5 ∧ parseFloat t.text < 1 / 10 := by
  refine ⟨⟨by decide, by decide, ?_, by simp⟩, ?_, ?_⟩
  · intro f hf
    simp only [Option.mem_def, Option.some.injEq] at hf
    subst hf
    decide
  · simp [Token.value, digitsVal, Nat.ofDigits, List.replicate]
    norm_num
  · decide +kernel

/-- `-12.5` followed by a blank. -/
example : parseFloat "-12.5 ".toList = -25 / 2 := by decide +kernel

/-! ## Materials -/

/-- The material a directive selects. -/
def Dir.mat : Dir → Option String
  | .use m => some m
  | .face _ => none
  | .mtllib _ => none

/-- The material selected most recently. -/
def selected : List Dir → Option String
  | [] => none
  | d :: ds => (selected ds).or d.mat

/-- For each face of the file, the directives before it. -/
def before : List Dir → List (List Dir)
  | [] => []
  | .face _ :: ds => [] :: (before ds).map (Dir.face ⟨fun _ => 0, fun _ => 0, fun _ => 0⟩ :: ·)
  | d :: ds => (before ds).map (d :: ·)

/-- The material selected when each face was read. -/
def faceMats (ds : List Dir) : List (Option String) := (before ds).map selected

theorem selected_append (ds : List Dir) (d : Dir) :
    selected (ds ++ [d]) = d.mat.or (selected ds) := by
  induction ds with
  | nil => simp [selected]
  | cons e ds ih => rw [List.cons_append, selected, ih, selected, Option.or_assoc]

/-- The faces a directive adds. -/
def added (ds : List Dir) : Dir → List (Option String)
  | .face _ => [selected ds]
  | .use _ => []
  | .mtllib _ => []

theorem faceMats_append (ds : List Dir) (d : Dir) :
    faceMats (ds ++ [d]) = faceMats ds ++ added ds d := by
  induction ds with
  | nil => cases d <;> rfl
  | cons e ds ih =>
    have hm : ∀ (e' : Dir) (z : List (List Dir)), (z.map (e' :: ·)).map selected =
        (z.map selected).map (fun o => o.or e'.mat) := by
      intro e' z
      rw [List.map_map, List.map_map]
      rfl
    have key : ∀ e' : Dir, ((before (ds ++ [d])).map (e' :: ·)).map selected =
        ((before ds).map (e' :: ·)).map selected ++ (added ds d).map (fun o => o.or e'.mat) := by
      intro e'
      rw [hm, hm, ← List.map_append]
      exact congrArg _ ih
    have hadd : (added ds d).map (fun o => o.or e.mat) = added (e :: ds) d := by
      cases d <;> rfl
    cases e with
    | use m => rw [← hadd]; exact key _
    | mtllib m => rw [← hadd]; exact key _
    | face f =>
      rw [← hadd]
      exact congrArg (_ :: ·) (key _)

theorem findMat_spec (m : String) (l : List String) (k : Nat) :
    (∀ i, findMat m l k = some i → k ≤ i ∧ l[i - k]? = some m) ∧
    (findMat m l k = none → m ∉ l) := by
  induction l generalizing k with
  | nil => simp [findMat]
  | cons x l ih =>
    obtain ⟨h1, h2⟩ := ih (k + 1)
    rw [findMat]
    split_ifs with hx
    · subst hx
      refine ⟨fun i hi => ?_, by simp⟩
      simp only [Option.some.injEq] at hi
      subst hi
      simp
    · refine ⟨fun i hi => ?_, fun hn => ?_⟩
      · obtain ⟨h3, h4⟩ := h1 i hi
        refine ⟨by omega, ?_⟩
        rw [show i - k = (i - (k + 1)) + 1 by omega]
        simpa using h4
      · simp [hx, h2 hn]

theorem toI32_eq {n : Nat} (h : n < 2 ^ 31) : toI32 n = n := by
  unfold toI32
  rw [Int.bmod_eq_of_le] <;> omega

/-- What the scanner keeps true. -/
structure Inv (ds : List Dir) (o : Obj) : Prop where
  nodup : o.materials.Nodup
  cur : ∀ m, selected ds = some m → o.materials.length ≤ 2 ^ 31 →
    ∃ i : Nat, o.current = i ∧ o.materials[i]? = some m
  cur0 : selected ds = none → o.current = 0 ∧ o.materials = []
  len : o.textureIdx.length = (faceMats ds).length
  faces : o.materials.length ≤ 2 ^ 31 → ∀ k : Nat, ∀ m : String, (faceMats ds)[k]? = some (some m) →
    ∃ i : Nat, o.textureIdx[k]? = some (i : Int) ∧ o.materials[i]? = some m
  faces0 : ∀ k : Nat, (faceMats ds)[k]? = some none → o.textureIdx[k]? = some 0
  names : ∀ m, m ∈ o.materials ↔ ∃ ds' ds'', ds = ds' ++ Dir.use m :: ds''
  files : ∀ f, f ∈ o.mtlFiles ↔ ∃ ds' ds'', ds = ds' ++ Dir.mtllib f :: ds''

theorem mem_append_use {ds : List Dir} {d : Dir} (P : Dir) :
    (∃ ds' ds'', ds ++ [d] = ds' ++ P :: ds'') ↔ (∃ ds' ds'', ds = ds' ++ P :: ds'') ∨ d = P := by
  rw [← List.mem_iff_append, ← List.mem_iff_append, List.mem_append, List.mem_singleton]
  constructor
  · rintro (h | h)
    · exact Or.inl h
    · exact Or.inr h.symm
  · rintro (h | h)
    · exact Or.inl h
    · exact Or.inr h.symm

theorem run_inv (ds : List Dir) : Inv ds (run ds) := by
  induction ds using List.reverseRecOn with
  | nil =>
    exact ⟨by simp [run, create], by simp [selected], by simp [run, create], rfl,
      by simp [faceMats, before], by simp [faceMats, before], by simp [run, create],
      by simp [run, create]⟩
  | append_singleton ds d ih =>
    have hrun : run (ds ++ [d]) = step (run ds) d := by simp [run]
    rw [hrun]
    generalize run ds = o at ih
    obtain ⟨vi, ni, ui, ti, mf, ms, cur⟩ := o
    obtain ⟨i1, i2, i3, i4, i5, i6, i7, i8⟩ := ih
    simp only at i1 i2 i3 i4 i5 i6 i7 i8
    have hfm := faceMats_append ds d
    cases d with
    | face f =>
      have hs : selected (ds ++ [Dir.face f]) = selected ds := selected_append ds _
      rw [added] at hfm
      refine ⟨i1, ?_, ?_, ?_, ?_, ?_, ?_, ?_⟩
      · rw [hs]; exact i2
      · rw [hs]; exact i3
      · simp [step, pushFace, hfm, i4]
      · intro hl k m hk
        simp only [step, pushFace] at hl ⊢
        rw [hfm] at hk
        rcases Nat.lt_or_ge k (faceMats ds).length with h | h
        · rw [List.getElem?_append_left h] at hk
          rw [List.getElem?_append_left (by omega)]
          exact i5 hl k m hk
        · rw [List.getElem?_append_right h] at hk
          rw [List.getElem?_append_right (by omega), i4]
          have hk0 : k - (faceMats ds).length = 0 := by
            by_contra hne
            obtain ⟨j, hj⟩ := Nat.exists_eq_succ_of_ne_zero hne
            rw [hj] at hk
            simp at hk
          rw [hk0] at hk ⊢
          simp only [List.getElem?_cons_zero, Option.some.injEq] at hk ⊢
          obtain ⟨i, h1, h2⟩ := i2 m hk hl
          exact ⟨i, h1, h2⟩
      · intro k hk
        simp only [step, pushFace]
        rw [hfm] at hk
        rcases Nat.lt_or_ge k (faceMats ds).length with h | h
        · rw [List.getElem?_append_left h] at hk
          rw [List.getElem?_append_left (by omega)]
          exact i6 k hk
        · rw [List.getElem?_append_right h] at hk
          rw [List.getElem?_append_right (by omega), i4]
          have hk0 : k - (faceMats ds).length = 0 := by
            by_contra hne
            obtain ⟨j, hj⟩ := Nat.exists_eq_succ_of_ne_zero hne
            rw [hj] at hk
            simp at hk
          rw [hk0] at hk ⊢
          simp only [List.getElem?_cons_zero, Option.some.injEq] at hk ⊢
          exact (i3 hk).1
      · intro m
        rw [mem_append_use, ← i7 m]
        simp [step, pushFace]
      · intro m
        rw [mem_append_use, ← i8 m]
        simp [step, pushFace]
    | mtllib f =>
      have hs : selected (ds ++ [Dir.mtllib f]) = selected ds := selected_append ds _
      rw [added, List.append_nil] at hfm
      refine ⟨i1, ?_, ?_, ?_, ?_, ?_, ?_, ?_⟩
      · rw [hs]; exact i2
      · rw [hs]; exact i3
      · rw [hfm]; exact i4
      · rw [hfm]; exact i5
      · rw [hfm]; exact i6
      · intro m
        rw [mem_append_use, ← i7 m]
        simp [step, pushMtl]
      · intro m
        rw [mem_append_use, ← i8 m]
        simp [step, pushMtl, eq_comm]
    | use m =>
      have hs : selected (ds ++ [Dir.use m]) = some m := selected_append ds _
      rw [added, List.append_nil] at hfm
      obtain ⟨f1, f2⟩ := findMat_spec m ms 0
      simp only [step, useMaterial]
      cases hfind : findMat m ms 0 with
      | some i =>
        obtain ⟨-, f3⟩ := f1 i hfind
        rw [Nat.sub_zero] at f3
        have hlt : i < ms.length := (List.getElem?_eq_some_iff.1 f3).1
        refine ⟨i1, ?_, ?_, ?_, ?_, ?_, ?_, ?_⟩
        · intro m' hm' hl
          rw [hs] at hm'
          obtain rfl := Option.some.inj hm'
          have h31 : i < 2 ^ 31 := lt_of_lt_of_le hlt hl
          have h32 := toI32_eq h31
          dsimp only
          generalize toI32 i = z at h32 ⊢
          exact ⟨i, h32, f3⟩
        · rw [hs]; simp
        · rw [hfm]; exact i4
        · rw [hfm]; exact i5
        · rw [hfm]; exact i6
        · intro m'
          rw [mem_append_use, ← i7 m']
          constructor
          · exact Or.inl
          · rintro (h | h)
            · exact h
            · cases h
              exact List.mem_of_getElem? f3
        · intro m'
          rw [mem_append_use, ← i8 m']
          simp
      | none =>
        have hni := f2 hfind
        refine ⟨?_, ?_, ?_, ?_, ?_, ?_, ?_, ?_⟩
        · rw [List.nodup_append]
          exact ⟨i1, by simp, by
            intro a ha b hb
            rw [List.mem_singleton] at hb
            rintro rfl
            exact hni (hb ▸ ha)⟩
        · intro m' hm' hl
          rw [hs] at hm'
          obtain rfl := Option.some.inj hm'
          have h31 : ms.length < 2 ^ 31 := by
            rw [List.length_append, List.length_singleton] at hl
            exact hl
          have h32 := toI32_eq h31
          generalize toI32 ms.length = z at h32 ⊢
          exact ⟨ms.length, h32, by simp⟩
        · rw [hs]; simp
        · rw [hfm]; exact i4
        · intro hl k m' hk
          rw [hfm] at hk
          simp only [List.length_append, List.length_singleton] at hl
          obtain ⟨i, h1, h2⟩ := i5 (by omega) k m' hk
          refine ⟨i, h1, ?_⟩
          rw [List.getElem?_append_left (List.getElem?_eq_some_iff.1 h2).1]
          exact h2
        · rw [hfm]; exact i6
        · intro m'
          rw [mem_append_use, ← i7 m']
          simp [eq_comm]
        · intro m'
          rw [mem_append_use, ← i8 m']
          simp

/-- **C62**, materials, for files with at most 2^31 materials: there is one index per face; a face
read while a material is selected has the index of that material's name; different indices have
different names; the names are those of the `usemtl` directives; and names outside the range are
refused.  Missing: faces before the first `usemtl`, which are given index 0
(`C62_violates_unselected`), and `aa_rx_wf_obj_get_mtl_filename` (`C62_violates_range`). -/
theorem C62_materials_partial (ds : List Dir) :
    (run ds).textureIdx.length = (faceMats ds).length ∧
    ((run ds).materials.length ≤ 2 ^ 31 → ∀ k : Nat, ∀ m : String,
      (faceMats ds)[k]? = some (some m) →
      ∃ i : Nat, (run ds).textureIdx[k]? = some (i : Int) ∧ getMaterialName (run ds) i = some m) ∧
    (∀ (i j : Nat) (m : String), getMaterialName (run ds) i = some m →
      getMaterialName (run ds) j = some m → i = j) ∧
    (∀ i, (getMaterialName (run ds) i).isSome ↔ i < (run ds).materials.length) ∧
    ∀ m, (∃ i, getMaterialName (run ds) i = some m) ↔ ∃ ds' ds'', ds = ds' ++ Dir.use m :: ds'' := by
  have h := run_inv ds
  have hname : ∀ i, getMaterialName (run ds) i = (run ds).materials[i]? := by
    intro i
    rw [getMaterialName]
    split_ifs with hi
    · rfl
    · rw [List.getElem?_eq_none (by omega)]
  refine ⟨h.len, fun hl k m hk => ?_, fun i j m hi hj => ?_, fun i => ?_, fun m => ?_⟩
  · obtain ⟨i, h1, h2⟩ := h.faces hl k m hk
    exact ⟨i, h1, by rw [hname]; exact h2⟩
  · rw [hname] at hi hj
    obtain ⟨a1, a2⟩ := List.getElem?_eq_some_iff.1 hi
    obtain ⟨b1, b2⟩ := List.getElem?_eq_some_iff.1 hj
    exact (List.Nodup.getElem_inj_iff h.nodup).1 (a2.trans b2.symm)
  · rw [hname]; simp
  · rw [← h.names m, List.mem_iff_getElem?]
    simp only [hname]

/-- **C62 fails** for faces before the first `usemtl`: they get index 0, which is later the index of
a material that was not selected. -/
theorem C62_violates_unselected (f : Face) (m : String) :
    faceMats [.face f, .use m] = [none] ∧ (run [.face f, .use m]).textureIdx = [0] ∧
    getMaterialName (run [.face f, .use m]) 0 = some m := by
  refine ⟨rfl, rfl, rfl⟩

/-- **C62 fails** for `aa_rx_wf_obj_get_mtl_filename` after every file: the index equal to the count
is not refused and reads an element that was never stored. -/
theorem C62_violates_range (ds : List Dir) :
    getMtlFilename (run ds) (run ds).mtlFiles.length = none := by
  simp [getMtlFilename]

/-- Two materials, the first selected again. -/
example (f : Face) : let ds := [Dir.use "a", .face f, .use "b", .face f, .use "a", .face f]
    faceMats ds = [some "a", some "b", some "a"] ∧ (run ds).textureIdx = [0, 1, 0] ∧
      (run ds).materials = ["a", "b"] := by
  have h0 : toI32 0 = 0 := toI32_eq (n := 0) (by norm_num)
  have h1 : toI32 1 = 1 := toI32_eq (n := 1) (by norm_num)
  refine ⟨rfl, ?_, ?_⟩ <;>
    simp [run, step, useMaterial, findMat, pushFace, create, h0, h1]

end Verif.Wf
