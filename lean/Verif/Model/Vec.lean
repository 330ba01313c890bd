import Verif.Model.Tf

/-!
# SIMD kernels

`include/amino/arch/gcc.h`, `include/amino/arch/avx.h` and `src/vec.c`.  A 4-lane vector is a
function from lane number to value; `__builtin_shuffle` with a constant mask picks lanes.  Lane 3 of
a vector loaded from three doubles is zero in the generic code (gcc.h:114-118) and uninitialised in
the AVX and `AA_VEC_TFMAT_LD` code (avx.h:69-77, gcc.h:267-280); the model passes that lane in as an
arbitrary value `g`.
-/

namespace Verif.Vec

open Verif.Tf

noncomputable section

/-- `aa_vec_4d` (gcc.h:47). -/
abbrev V4 := Fin 4 → ℝ

/-- `aa_vec_2d` (gcc.h:46). -/
abbrev V2 := Fin 2 → ℝ

/-- gcc.h:53-58 `aa_vec_4d_shuffle`. -/
def shuffle (a : V4) (i0 i1 i2 i3 : Fin 4) : V4 := ![a i0, a i1, a i2, a i3]

/-- writing one lane, `v[i] = x`. -/
def setLane (a : V4) (i : Fin 4) (x : ℝ) : V4 := Function.update a i x

/-- gcc.h:81-85 `aa_vec_4d_ld`. -/
def ld4 (q : Quat) : V4 := ![q.x, q.y, q.z, q.w]

/-- gcc.h:87-91 `aa_vec_4d_st`. -/
def st4 (a : V4) : Quat := ⟨a 0, a 1, a 2, a 3⟩

/-- gcc.h:113-118 and avx.h:69-77 `aa_vec_3d_ld`; `g` is what lane 3 happens to hold. -/
def ld3 (g : ℝ) (v : V3) : V4 := ![v.x, v.y, v.z, g]

/-- gcc.h:123-129 `aa_vec_3d_st`. -/
def st3 (a : V4) : V3 := ⟨a 0, a 1, a 2⟩

/-- gcc.h:132-140 `aa_vec_4d_dot`. -/
def dot4 (a b : V4) : ℝ :=
  let sq := a * b
  let y : V2 := ![sq 2, sq 3]
  let x : V2 := ![sq 0, sq 1]
  let z := x + y
  z 0 + z 1

/-- gcc.h:142-149 `aa_vec_cross`. -/
def vcross (a b : V4) : V4 :=
  let tmp := a * shuffle b 1 2 0 3 - shuffle a 1 2 0 3 * b
  shuffle tmp 1 2 0 3

/-- gcc.h:156-162 `aa_vec_qconj`. -/
def vqconj (q : V4) : V4 :=
  let c := -q
  setLane c 3 (c 3 * -1)

/-- gcc.h:165-177 `aa_vec_qmul`. -/
def vqmul (a b : V4) : V4 :=
  let vc := shuffle a 0 2 3 1 * shuffle b 3 0 2 1 + shuffle a 1 3 2 0 * shuffle b 2 1 3 0
    + shuffle a 3 1 0 2 * shuffle b 0 3 1 2 - shuffle a 2 0 1 3 * shuffle b 1 2 0 3
  setLane vc 3 (-vc 3)

/-- gcc.h:191-202 `aa_vec_vqmul`. -/
def vvqmul (v q : V4) : V4 :=
  let t := setLane (shuffle v 2 0 1 1) 3 (-v 2)
  let y := shuffle v 1 2 0 0 * shuffle q 2 0 1 0
  let y := y + shuffle v 0 1 2 1 * shuffle q 3 3 3 2
  let y := y - t * shuffle q 1 2 0 2
  setLane y 3 (-y 3)

/-- gcc.h:209-215 `aa_vec_qrot`. -/
def vqrot (q v : V4) : V4 :=
  let a := vcross q v + q 3 • v
  let b := vcross q a
  (2 : ℝ) • b + v

/-- gcc.h:223-228 `aa_vec_qv_tf`. -/
def vqvTf (q v p : V4) : V4 := vqrot q p + v

/-- gcc.h:259-264 `aa_vec_rotmat_tf`. -/
def vrotmatTf (R0 R1 R2 p : V4) : V4 := p 0 • R0 + p 1 • R1 + p 2 • R2

/-- gcc.h:300-306 `aa_vec_tfmat_tf`. -/
def vtfmatTf (T0 T1 T2 T3 p : V4) : V4 := vrotmatTf T0 T1 T2 p + T3

/-- gcc.h:333-337 `aa_vec_duqu_trans`. -/
def vduquTrans (r d : V4) : V4 := (2 : ℝ) • vqmul d (vqconj r)

/-- src/vec.c:49-55 `aa_vecm_cross`. -/
def mcross (ga gb : ℝ) (a b : V3) : V3 := st3 (vcross (ld3 ga a) (ld3 gb b))

/-- src/vec.c:57-63 `aa_vecm_qconj`. -/
def mqconj (q : Quat) : Quat := st4 (vqconj (ld4 q))

/-- src/vec.c:67-73 `aa_vecm_qmul`. -/
def mqmul (a b : Quat) : Quat := st4 (vqmul (ld4 a) (ld4 b))

/-- src/vec.c:75-82 `aa_vecm_qrot`. -/
def mqrot (g : ℝ) (q : Quat) (v : V3) : V3 := st3 (vqrot (ld4 q) (ld3 g v))

/-- src/vec.c:84-92 `aa_vecm_tfmul` with `AA_VEC_TFMAT_LD` (gcc.h:267-280), `AA_VEC_TFMUL`
(gcc.h:309-314) and `aa_vec_tfmat_st` (gcc.h:283-298); `g0..g3` are the unset lanes. -/
def mtfmul (g0 g1 g2 g3 : ℝ) (A B : Tfm) : Tfm :=
  let c0 : V4 := ![A.R.m0, A.R.m1, A.R.m2, g0]
  let c1 : V4 := ![A.R.m3, A.R.m4, A.R.m5, g1]
  let c2 : V4 := ![A.R.m6, A.R.m7, A.R.m8, g2]
  let c3 : V4 := ![A.v.x, A.v.y, A.v.z, g3]
  let u0 := B.R.m0 • c0 + B.R.m1 • c1 + B.R.m2 • c2
  let u1 := B.R.m3 • c0 + B.R.m4 • c1 + B.R.m5 • c2
  let u2 := B.R.m6 • c0 + B.R.m7 • c1 + B.R.m8 • c2
  let u3 := B.v.x • c0 + B.v.y • c1 + B.v.z • c2 + c3
  ⟨⟨u0 0, u0 1, u0 2, u1 0, u1 1, u1 2, u2 0, u2 1, u2 2⟩, ⟨u3 0, u3 1, u3 2⟩⟩

/-- src/vec.c:113-137 `aa_vecm_tfmul_2d`: the two upper rows in vector code, the last row in scalar
code that reads `T0[2]`, `T0[2+2]` and `T0[2+3]`. -/
def mtfmul2d (A B : Tfm) : Tfm :=
  let c0 : V2 := ![A.R.m0, A.R.m1]
  let c1 : V2 := ![A.R.m3, A.R.m4]
  let c2 : V2 := ![A.R.m6, A.R.m7]
  let c3 : V2 := ![A.v.x, A.v.y]
  let r0 := B.R.m0 • c0 + B.R.m1 • c1 + B.R.m2 • c2
  let r1 := B.R.m3 • c0 + B.R.m4 • c1 + B.R.m5 • c2
  let r2 := B.R.m6 • c0 + B.R.m7 • c1 + B.R.m8 • c2
  let r3 := B.v.x • c0 + B.v.y • c1 + B.v.z • c2 + c3
  ⟨⟨r0 0, r0 1, A.R.m2 * B.R.m0 + A.R.m4 * B.R.m1 + A.R.m5 * B.R.m2,
    r1 0, r1 1, A.R.m2 * B.R.m3 + A.R.m4 * B.R.m4 + A.R.m5 * B.R.m5,
    r2 0, r2 1, A.R.m2 * B.R.m6 + A.R.m4 * B.R.m7 + A.R.m5 * B.R.m8⟩,
   ⟨r3 0, r3 1, A.R.m2 * B.v.x + A.R.m4 * B.v.y + A.R.m5 * B.v.z + A.v.z⟩⟩

/-- src/vec.c:139-151 `aa_vecm_duqu_mul` with `AA_VEC_DUQU_MUL` (gcc.h:324-327). -/
def mduquMul (A B : Duqu) : Duqu :=
  let r0 := ld4 A.real
  let d0 := ld4 A.dual
  let r1 := ld4 B.real
  let d1 := ld4 B.dual
  ⟨st4 (vqmul r0 r1), st4 (vqmul r0 d1 + vqmul d0 r1)⟩

end

end Verif.Vec
