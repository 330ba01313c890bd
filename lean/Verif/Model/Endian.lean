/-! Byte order conversion (include/amino/endconv.h). -/

namespace Verif.Endian

inductive Host where
  | little
  | big
deriving DecidableEq

/-- The loop body of `aa_endconv_reverse_*` (endconv.h:254-266) run for bytes
`i, i+1, .. , i+k-1` of an `8*n`-bit value. `>>` is arithmetic for the signed
instances and logical for the unsigned ones. -/
def revLoop (sgn : Bool) {n : Nat} (x : BitVec (8 * n)) : Nat → Nat → BitVec (8 * n) → BitVec (8 * n)
  | 0, _, y => y
  | k + 1, i, y =>
    let j := 8 * n - 8 * i - 8
    let sh := if sgn then x.sshiftRight (8 * i) else x >>> (8 * i)
    let v := (sh &&& (BitVec.ofNat (8 * n) 0xff)) <<< j
    revLoop sgn x k (i + 1) (y ||| v)

/-- `aa_endconv_reverse_{i,u}{16,32,64}` (endconv.h:254-266). -/
def reverse (sgn : Bool) {n : Nat} (x : BitVec (8 * n)) : BitVec (8 * n) := revLoop sgn x n 0 0

/-- `aa_endconv_h_to_le_*` and `aa_endconv_le_to_h_*` (endconv.h:273-274, 282-283, 292-295, 299-302). -/
def hToLe (h : Host) (sgn : Bool) {n : Nat} (x : BitVec (8 * n)) : BitVec (8 * n) :=
  match h with
  | .little => x
  | .big => reverse sgn x

/-- `aa_endconv_be_to_h_*` (endconv.h:285-288, 303-304); also `aa_endconv_h_to_be_*`
on a little endian host (endconv.h:276-279). -/
def beToH (h : Host) (sgn : Bool) {n : Nat} (x : BitVec (8 * n)) : BitVec (8 * n) :=
  match h with
  | .little => reverse sgn x
  | .big => x

/-- `aa_endconv_reverse` on memory (endconv.h:212-220): `dst[i] = src[len-i-1]`. -/
def reverseMem (src : List UInt8) : List UInt8 :=
  (List.range src.length).map fun i => src[src.length - i - 1]!

/-- `aa_endconv_st_le` (endconv.h:224-232). Also the body of `aa_endconv_ld_le_*` (316-319). -/
def stLe (h : Host) (src : List UInt8) : List UInt8 :=
  match h with
  | .little => src
  | .big => reverseMem src

/-- `aa_endconv_st_be` (endconv.h:235-243). Also the body of `aa_endconv_ld_be_*` (320-323). -/
def stBe (h : Host) (src : List UInt8) : List UInt8 :=
  match h with
  | .little => reverseMem src
  | .big => src

/-- The four conversions a header user can name. -/
inductive Fn where
  | hToLe | hToBe | leToH | beToH
deriving DecidableEq

/-- The functions actually defined for each integer type by
`AA_ENDCONV_MAKE_CONV_DEF` (endconv.h:270-330), in order. On a big endian host
`AA_ENDCONV_MAKE_H_TO_BE` (endconv.h:296-297) defines `aa_endconv_h_to_le_*`. -/
def defined : Host → List Fn
  | .little => [.hToLe, .hToBe, .leToH, .beToH]
  | .big => [.hToLe, .hToLe, .leToH, .beToH]

end Verif.Endian
