/-! `struct timespec` arithmetic (include/amino/time.h:67-126). C integer division
truncates: `Int.tdiv`, `Int.tmod`. -/

namespace Verif.Time

structure TS where
  sec : Int
  nsec : Int
deriving DecidableEq, Repr

/-- `AA_IBILLION` (include/amino/util.h). -/
def BILLION : Int := 1000000000

/-- `AA_MODULO`, `aa_lmodulo` (include/amino/math.h:128, 137-139). -/
def lmodulo (a b : Int) : Int := ((a.tmod b) + b).tmod b

/-- `aa_tm_make_norm` (time.h:78-82). -/
def makeNorm (sec nsec : Int) : TS :=
  let nsp := lmodulo nsec BILLION
  ⟨sec + (nsec - nsp).tdiv BILLION, nsp⟩

/-- `aa_tm_add` (time.h:85-89). -/
def add (a b : TS) : TS := makeNorm (a.sec + b.sec) (a.nsec + b.nsec)

/-- `aa_tm_sub` (time.h:92-96). -/
def sub (a b : TS) : TS := makeNorm (a.sec - b.sec) (a.nsec - b.nsec)

/-- `aa_tm_cmp` (time.h:109-114). -/
def cmp (a b : TS) : Int := if a.sec ≠ b.sec then a.sec - b.sec else a.nsec - b.nsec

/-- `aa_tm_min`, `aa_tm_max` (time.h:117-126). -/
def min (a b : TS) : TS := if cmp a b < 0 then a else b
def max (a b : TS) : TS := if cmp a b > 0 then a else b

/-- `aa_tm_timespec2usec`, `aa_tm_timespec2msec` (time.h:135-144). -/
def usec (t : TS) : Int := t.sec * 1000000 + t.nsec.tdiv 1000
def msec (t : TS) : Int := t.sec * 1000 + t.nsec.tdiv 1000000

end Verif.Time
