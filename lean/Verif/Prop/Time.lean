import Verif.Model.Time

/-! Property C17: timespec arithmetic. -/

namespace Verif.Time

/-- Specification: the instant a timespec represents, in nanoseconds. -/
def ns (t : TS) : Int := t.sec * 1000000000 + t.nsec

/-- Specification: normalized. -/
def Norm (t : TS) : Prop := 0 ≤ t.nsec ∧ t.nsec < 1000000000

theorem lmodulo_eq (a b : Int) (hb : 0 < b) : lmodulo a b = a % b := by
  simp only [lmodulo]
  have h1 : a.tmod b + b ≥ 0 := by have := Int.lt_tmod_of_pos a hb; omega
  rw [Int.tmod_eq_emod_of_nonneg h1, Int.add_emod_right]
  have h2 := Int.mul_tdiv_add_tmod a b
  have : a.tmod b = a - b * a.tdiv b := by omega
  rw [this, Int.sub_mul_emod_self_left]

theorem makeNorm_spec (s n : Int) : Norm (makeNorm s n) ∧ ns (makeNorm s n) = s * 1000000000 + n := by
  have h := lmodulo_eq n BILLION (by decide)
  simp only [makeNorm, Norm, ns, h]
  simp only [BILLION]
  have hd : (1000000000 : Int) ∣ n - n % 1000000000 := by omega
  rw [Int.tdiv_eq_ediv_of_dvd hd]
  omega

/-- **C17**, sums: for all timespecs (not only normalized ones) `aa_tm_add` returns
the normalized timespec of the exact sum, and `aa_tm_sub` of the exact difference. -/
theorem C17_add_sub (a b : TS) :
    Norm (add a b) ∧ ns (add a b) = ns a + ns b ∧ Norm (sub a b) ∧ ns (sub a b) = ns a - ns b := by
  obtain ⟨h1, h2⟩ := makeNorm_spec (a.sec + b.sec) (a.nsec + b.nsec)
  obtain ⟨h3, h4⟩ := makeNorm_spec (a.sec - b.sec) (a.nsec - b.nsec)
  refine ⟨h1, ?_, h3, ?_⟩
  · rw [add, h2]; simp only [ns]; omega
  · rw [sub, h4]; simp only [ns]; omega

/-- **C17**, order: on normalized timespecs the sign of `aa_tm_cmp` is the order of
the instants, and min / max pick the earlier / later one. -/
theorem C17_cmp (a b : TS) (ha : Norm a) (hb : Norm b) :
    (cmp a b < 0 ↔ ns a < ns b) ∧ (cmp a b = 0 ↔ ns a = ns b) ∧ (cmp a b > 0 ↔ ns a > ns b) ∧
    ns (min a b) = Min.min (ns a) (ns b) ∧ ns (max a b) = Max.max (ns a) (ns b) := by
  have key : (cmp a b < 0 ↔ ns a < ns b) ∧ (cmp a b = 0 ↔ ns a = ns b) ∧ (cmp a b > 0 ↔ ns a > ns b) := by
    simp only [cmp, ns, Norm] at *
    split <;> omega
  refine ⟨key.1, key.2.1, key.2.2, ?_, ?_⟩
  · simp only [min]; split <;> omega
  · simp only [max]; split <;> omega

/-- **C17**, subtraction undoes addition exactly on normalized values. -/
theorem C17_sub_add (a b : TS) (ha : Norm a) : sub (add a b) b = a := by
  obtain ⟨h1, h2, _, _⟩ := C17_add_sub a b
  obtain ⟨_, _, h3, h4⟩ := C17_add_sub (add a b) b
  obtain ⟨as, an⟩ := a
  generalize hq : sub (add ⟨as, an⟩ b) b = q at *
  obtain ⟨qs, qn⟩ := q
  simp only [ns, Norm, TS.mk.injEq] at *
  omega

/-- **C17**, the nanosecond arithmetic does not overflow even a 32-bit `long` on
normalized inputs: operands, intermediate sums of `AA_MODULO` and results fit. -/
theorem C17_no_overflow (a b : TS) (ha : Norm a) (hb : Norm b) (n : Int)
    (hn : n = a.nsec + b.nsec ∨ n = a.nsec - b.nsec) :
    let fits (x : Int) := -2147483648 ≤ x ∧ x ≤ 2147483647
    fits n ∧ fits (n.tmod BILLION) ∧ fits (n.tmod BILLION + BILLION) ∧ fits (n - lmodulo n BILLION) := by
  have h1 := Int.lt_tmod_of_pos n (show 0 < BILLION by decide)
  have h2 := Int.tmod_lt_of_pos n (show 0 < BILLION by decide)
  have h3 := lmodulo_eq n BILLION (by decide)
  simp only [BILLION, Norm] at *
  omega

/-- **C17**, conversions: on normalized timespecs micro- and milliseconds are the
instant rounded down. -/
theorem C17_units (t : TS) (ht : Norm t) : usec t = ns t / 1000 ∧ msec t = ns t / 1000000 := by
  simp only [usec, msec, ns, Norm] at *
  rw [Int.tdiv_eq_ediv_of_nonneg ht.1, Int.tdiv_eq_ediv_of_nonneg ht.1]
  omega

example : sub ⟨-3, 100⟩ ⟨2, 900000000⟩ = ⟨-6, 100000100⟩ ∧ Norm ⟨-3, 100⟩ ∧ Norm ⟨2, 900000000⟩ := by
  refine ⟨by decide, ?_, ?_⟩ <;> simp [Norm]

end Verif.Time
