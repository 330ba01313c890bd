/-
C156: meshes as the scene compiler writes them.
-/
import Verif.Model.MeshDe
import Mathlib.Algebra.Order.Field.Basic
import Mathlib.Tactic.FieldSimp
import Mathlib.Tactic.Linarith
import Mathlib.Tactic.Ring
import Mathlib.Data.List.Nodup
import Mathlib.Algebra.Order.Ring.Rat

set_option linter.unusedSectionVars false

namespace Verif.MeshDe

variable {K : Type} [DecidableEq K]

/-! ### Specification -/

/-- A triangle mesh with `n` materials: the corners come in threes, each names a vertex and a normal of the
mesh, and either there are no materials, or each face has one of them. -/
structure Valid (n : Nat) (m : Mesh K) : Prop where
  len : m.nidx.length = m.vidx.length
  three : m.vidx.length % 3 = 0
  vin : ∀ v ∈ m.vidx, 3 * v + 2 < m.verts.length
  nin : ∀ v ∈ m.nidx, 3 * v + 2 < m.norms.length
  tlen : ∀ ts, m.tex = some ts → 3 * ts.length = m.vidx.length
  tin : ∀ ts, m.tex = some ts → 0 < n → ∀ t ∈ ts, 0 ≤ t ∧ t < n
  tsome : 0 < n → m.tex.isSome

/-- The face of each corner keeps its place, its position, its normal and its material. -/
structure Same {F : Type} [Field F] [LinearOrder F] (n : Nat) (m : Mesh K) (C : Calls K F) : Prop where
  /-- As many faces as before. -/
  faces : 3 * C.nFace = C.idx.length ∧ C.idx.length = m.vidx.length
  /-- The numbers of vectors are those of the arrays, and there is one normal for each vertex. -/
  counts : 3 * C.nVert = C.verts.length ∧ 3 * C.nNorm = C.norms.length ∧ C.nNorm = C.nVert
  /-- Each corner has its position and its normal. -/
  corner : ∀ (i k : Nat), C.idx[i]? = some k → k < C.nVert ∧ ∃ v u, m.vidx[i]? = some v ∧ m.nidx[i]? = some u ∧
    ∀ j < 3, C.verts[3 * k + j]? = m.verts[3 * v + j]? ∧ C.norms[3 * k + j]? = m.norms[3 * u + j]?
  /-- Corners with the same position, the same normal and the same material share a vertex. -/
  shared : ∀ (i i' v v' u u' : Nat), m.vidx[i]? = some v → m.vidx[i']? = some v' → m.nidx[i]? = some u →
    m.nidx[i']? = some u' → (∀ j < 3, m.verts[3 * v + j]? = m.verts[3 * v' + j]? ∧
      m.norms[3 * u + j]? = m.norms[3 * u' + j]?) → (∀ ts, m.tex = some ts → ts[i / 3]? = ts[i' / 3]?) →
    C.idx[i]? = C.idx[i']?
  /-- No vertex is superfluous. -/
  used : ∀ k < C.nVert, ∃ i : Nat, C.idx[i]? = some k
  /-- Without materials there are no texture coordinates. -/
  none : n = 0 → C.uv = none
  /-- With `n` materials side by side in a texture of width 1, each corner lies within the piece of the
  material of its face. -/
  tex : 0 < n → ∃ U ts, C.uv = some (C.nVert, U) ∧ U.length = 2 * C.nVert ∧ m.tex = some ts ∧
    ∀ (i k : Nat), C.idx[i]? = some k → ∃ (t : Int) (u : F), ts[i / 3]? = some t ∧ U[2 * k]? = some u ∧
      U[2 * k + 1]? = some 0 ∧ (t : F) < n * u ∧ n * u < t + 1

/-! ### Lemmas -/

theorem key_spec (m : Mesh K) (i v u : Nat) (k : Key K) (h : key m i v u = some k) :
    m.verts[3 * v]? = some k.x ∧ m.verts[3 * v + 1]? = some k.y ∧ m.verts[3 * v + 2]? = some k.z ∧
    m.norms[3 * u]? = some k.nx ∧ m.norms[3 * u + 1]? = some k.ny ∧ m.norms[3 * u + 2]? = some k.nz ∧
    texAt m.tex i = some k.t := by
  simp only [key, Option.bind_eq_some_iff, Option.map_eq_some_iff, Nat.add_zero] at h
  obtain ⟨x, hx, y, hy, z, hz, a, ha, b, hb, c, hc, t, ht, rfl⟩ := h
  exact ⟨hx, hy, hz, ha, hb, hc, ht⟩

theorem key_some (m : Mesh K) (i v u : Nat) (hv : 3 * v + 2 < m.verts.length) (hu : 3 * u + 2 < m.norms.length)
    (ht : ∀ ts, m.tex = some ts → i / 3 < ts.length) : ∃ k, key m i v u = some k := by
  have htx : ∃ t, texAt m.tex i = some t := by
    unfold texAt
    cases h : m.tex with
    | none => exact ⟨_, rfl⟩
    | some ts => exact ⟨some (ts[i / 3]'(ht ts h)), by simp [ht ts h]⟩
  obtain ⟨t, htx⟩ := htx
  refine ⟨⟨m.verts[3 * v], m.verts[3 * v + 1], m.verts[3 * v + 2], m.norms[3 * u], m.norms[3 * u + 1],
    m.norms[3 * u + 2], t⟩, ?_⟩
  simp only [key, Nat.add_zero, List.getElem?_eq_getElem (show 3 * v < m.verts.length by omega),
    List.getElem?_eq_getElem (show 3 * v + 1 < m.verts.length by omega), List.getElem?_eq_getElem hv,
    List.getElem?_eq_getElem (show 3 * u < m.norms.length by omega),
    List.getElem?_eq_getElem (show 3 * u + 1 < m.norms.length by omega), List.getElem?_eq_getElem hu,
    Option.bind_some, htx, Option.map_some]

theorem loop_spec (m : Mesh K) (rest : List (Nat × Nat)) : ∀ (i : Nat) (hash : List (Key K)) (out : List Nat),
    hash.Nodup → (∀ (p v u : Nat), rest[p]? = some (v, u) → ∃ k, key m (i + p) v u = some k) →
    ∃ hash' new, loop m i rest hash out = some (hash', out ++ new) ∧ hash <+: hash' ∧ hash'.Nodup ∧
      new.length = rest.length ∧
      (∀ (p v u : Nat), rest[p]? = some (v, u) → ∃ k q, key m (i + p) v u = some k ∧ new[p]? = some q ∧
        hash'[q]? = some k) ∧
      ∀ q, hash.length ≤ q → q < hash'.length → ∃ p : Nat, new[p]? = some q := by
  induction rest with
  | nil =>
      intro i hash out hn _
      exact ⟨hash, [], by simp [loop], List.prefix_rfl, hn, rfl, by simp, by intro q h1 h2; omega⟩
  | cons vu rest ih =>
      obtain ⟨v, u⟩ := vu
      intro i hash out hn hk
      obtain ⟨k, hk0⟩ := hk 0 v u (by simp)
      rw [Nat.add_zero] at hk0
      have hk' : ∀ (p v u : Nat), rest[p]? = some (v, u) → ∃ k, key m (i + 1 + p) v u = some k := by
        intro p v u hp
        have := hk (p + 1) v u (by simpa using hp)
        rwa [show i + 1 + p = i + (p + 1) by omega]
      simp only [loop, hk0, Option.bind_some]
      by_cases hm : k ∈ hash
      · rw [if_pos hm]
        obtain ⟨hash', new, h1, h2, h3, h4, h5, h6⟩ := ih (i + 1) hash (out ++ [hash.idxOf k]) hn hk'
        refine ⟨hash', hash.idxOf k :: new, by simpa using h1, h2, h3, by simp [h4], ?_, ?_⟩
        · intro p v' u' hp
          cases p with
          | zero =>
              simp only [List.getElem?_cons_zero, Option.some.injEq, Prod.mk.injEq] at hp
              obtain ⟨rfl, rfl⟩ := hp
              refine ⟨k, hash.idxOf k, by simpa using hk0, by simp, ?_⟩
              obtain ⟨tl, rfl⟩ := h2
              have hl := List.idxOf_lt_length_of_mem hm
              rw [List.getElem?_append_left hl, List.getElem?_eq_getElem hl, List.getElem_idxOf hl]
          | succ p =>
              obtain ⟨k', q, e1, e2, e3⟩ := h5 p v' u' (by simpa using hp)
              exact ⟨k', q, by rwa [show i + (p + 1) = i + 1 + p by omega], by simpa using e2, e3⟩
        · intro q hq1 hq2
          obtain ⟨p, hp⟩ := h6 q hq1 hq2
          exact ⟨p + 1, by simpa using hp⟩
      · rw [if_neg hm]
        have hn' : (hash ++ [k]).Nodup := by
          rw [List.nodup_append]
          refine ⟨hn, by simp, ?_⟩
          intro a ha b hb
          simp only [List.mem_singleton] at hb
          subst hb
          rintro rfl; exact hm ha
        obtain ⟨hash', new, h1, h2, h3, h4, h5, h6⟩ := ih (i + 1) (hash ++ [k]) (out ++ [hash.length]) hn' hk'
        refine ⟨hash', hash.length :: new, by simpa using h1, (List.prefix_append _ _).trans h2, h3, by simp [h4],
          ?_, ?_⟩
        · intro p v' u' hp
          cases p with
          | zero =>
              simp only [List.getElem?_cons_zero, Option.some.injEq, Prod.mk.injEq] at hp
              obtain ⟨rfl, rfl⟩ := hp
              refine ⟨k, hash.length, by simpa using hk0, by simp, ?_⟩
              obtain ⟨tl, rfl⟩ := h2
              simp
          | succ p =>
              obtain ⟨k', q, e1, e2, e3⟩ := h5 p v' u' (by simpa using hp)
              exact ⟨k', q, by rwa [show i + (p + 1) = i + 1 + p by omega], by simpa using e2, e3⟩
        · intro q hq1 hq2
          rcases Nat.eq_or_lt_of_le hq1 with rfl | hq1
          · exact ⟨0, by simp⟩
          · obtain ⟨p, hp⟩ := h6 q (by simp; omega) hq2
            exact ⟨p + 1, by simpa using hp⟩

theorem flat3 {α β : Type} (f : α → List β) (a b c : α → β) (hf : ∀ k, f k = [a k, b k, c k]) (L : List α) :
    (L.flatMap f).length = 3 * L.length ∧ ∀ (q : Nat) (k : α), L[q]? = some k →
      (L.flatMap f)[3 * q]? = some (a k) ∧ (L.flatMap f)[3 * q + 1]? = some (b k) ∧
      (L.flatMap f)[3 * q + 2]? = some (c k) := by
  induction L with
  | nil => simp
  | cons d L ih =>
      rw [List.flatMap_cons, hf]
      refine ⟨by simp [ih.1]; omega, fun q k hq => ?_⟩
      cases q with
      | zero => simp at hq; subst hq; simp
      | succ q =>
          have := ih.2 q k (by simpa using hq)
          rw [show 3 * (q + 1) = 3 * q + 3 by omega]
          simpa using this

theorem flat2 {α β : Type} (f : α → List β) (a b : α → β) (hf : ∀ k, f k = [a k, b k]) (L : List α) :
    (L.flatMap f).length = 2 * L.length ∧ ∀ (q : Nat) (k : α), L[q]? = some k →
      (L.flatMap f)[2 * q]? = some (a k) ∧ (L.flatMap f)[2 * q + 1]? = some (b k) := by
  induction L with
  | nil => simp
  | cons d L ih =>
      rw [List.flatMap_cons, hf]
      refine ⟨by simp [ih.1]; omega, fun q k hq => ?_⟩
      cases q with
      | zero => simp at hq; subst hq; simp
      | succ q =>
          have := ih.2 q k (by simpa using hq)
          rw [show 2 * (q + 1) = 2 * q + 2 by omega]
          simpa using this

theorem filterMap_some {α β : Type} (f : α → Option β) (L : List α) (h : ∀ k ∈ L, (f k).isSome) :
    (L.filterMap f).length = L.length ∧ ∀ (q : Nat) (k : α), L[q]? = some k → (L.filterMap f)[q]? = f k := by
  induction L with
  | nil => simp
  | cons d L ih =>
      obtain ⟨b, hb⟩ := Option.isSome_iff_exists.1 (h d (by simp))
      have := ih (fun k hk => h k (by simp [hk]))
      rw [List.filterMap_cons_some hb]
      refine ⟨by simp [this.1], fun q k hq => ?_⟩
      cases q with
      | zero => simp at hq; subst hq; simp [hb]
      | succ q => simpa using this.2 q k (by simpa using hq)

/-! ### The property -/

/-- C156: for every triangle mesh, the calls that are written keep the position, the normal and the material of
each corner of each face. -/
theorem C156_mesh {F : Type} [Field F] [LinearOrder F] [IsStrictOrderedRing F] (n : Nat) (m : Mesh K)
    (h : Valid n m) : ∃ C : Calls K F, gen n m = some C ∧ Same n m C := by
  have hzip : ∀ (p v u : Nat), (m.vidx.zip m.nidx)[p]? = some (v, u) ↔ m.vidx[p]? = some v ∧ m.nidx[p]? = some u := by
    intro p v u; rw [List.getElem?_zip_eq_some]
  have hdiv : ∀ p, p < m.vidx.length → ∀ ts, m.tex = some ts → p / 3 < ts.length := by
    intro p hp ts hts
    have := h.tlen ts hts
    omega
  have hkey : ∀ (p v u : Nat), (m.vidx.zip m.nidx)[p]? = some (v, u) → ∃ k, key m (0 + p) v u = some k := by
    intro p v u hp
    obtain ⟨h1, h2⟩ := (hzip p v u).1 hp
    rw [Nat.zero_add]
    exact key_some m p v u (h.vin v (List.mem_of_getElem? h1)) (h.nin u (List.mem_of_getElem? h2))
      (hdiv p (List.getElem?_eq_some_iff.1 h1).1)
  obtain ⟨hash, new, h1, -, h3, h4, h5, h6⟩ := loop_spec m (m.vidx.zip m.nidx) 0 [] [] (by simp) hkey
  rw [List.nil_append] at h1
  have hlen : new.length = m.vidx.length := by rw [h4, List.length_zip, h.len, Nat.min_self]
  simp only [List.length_nil, Nat.zero_le, true_implies] at h6
  have hcorner : ∀ (i k : Nat), new[i]? = some k → ∃ v u key', m.vidx[i]? = some v ∧ m.nidx[i]? = some u ∧
      hash[k]? = some key' ∧ key m i v u = some key' := by
    intro i k hik
    have hi : i < m.vidx.length := by rw [← hlen]; exact (List.getElem?_eq_some_iff.1 hik).1
    have hi' : i < m.nidx.length := by rw [h.len]; exact hi
    have e1 := List.getElem?_eq_getElem hi
    have e2 := List.getElem?_eq_getElem hi'
    obtain ⟨key', q, k1, k2, k3⟩ := h5 i _ _ ((hzip i _ _).2 ⟨e1, e2⟩)
    rw [hik] at k2
    simp only [Option.some.injEq] at k2
    subst k2
    exact ⟨_, _, key', e1, e2, k3, by simpa using k1⟩
  obtain ⟨v1, v2⟩ := flat3 (fun k : Key K => [k.x, k.y, k.z]) _ _ _ (fun k => rfl) hash
  obtain ⟨n1, n2⟩ := flat3 (fun k : Key K => [k.nx, k.ny, k.nz]) _ _ _ (fun k => rfl) hash
  have hd : deindex m = some ⟨hash.flatMap fun k => [k.x, k.y, k.z], new,
      hash.flatMap fun k => [k.nx, k.ny, k.nz], [], some (hash.filterMap fun k => k.t)⟩ := by
    simp only [deindex, h.len, if_true, h1, Option.map_some]
  have hthree : ¬ ((hash.flatMap fun k : Key K => [k.x, k.y, k.z]).length % 3 ≠ 0 ∨ new.length % 3 ≠ 0 ∨
      (hash.flatMap fun k : Key K => [k.nx, k.ny, k.nz]).length % 3 ≠ 0) := by
    have := h.three
    rw [v1, n1, hlen]; omega
  have hbasic : ∀ (i k : Nat), new[i]? = some k → k < (hash.flatMap fun k : Key K => [k.x, k.y, k.z]).length / 3 ∧
      ∃ v u, m.vidx[i]? = some v ∧ m.nidx[i]? = some u ∧
      ∀ j < 3, (hash.flatMap fun k : Key K => [k.x, k.y, k.z])[3 * k + j]? = m.verts[3 * v + j]? ∧
        (hash.flatMap fun k : Key K => [k.nx, k.ny, k.nz])[3 * k + j]? = m.norms[3 * u + j]? := by
    intro i k hik
    obtain ⟨v, u, key', e1, e2, e3, e4⟩ := hcorner i k hik
    obtain ⟨s1, s2, s3, s4, s5, s6, -⟩ := key_spec _ _ _ _ _ e4
    obtain ⟨a1, a2, a3⟩ := v2 k key' e3
    obtain ⟨b1, b2, b3⟩ := n2 k key' e3
    have hk := (List.getElem?_eq_some_iff.1 e3).1
    refine ⟨by rw [v1]; omega, v, u, e1, e2, fun j hj => ?_⟩
    have : j = 0 ∨ j = 1 ∨ j = 2 := by omega
    rcases this with rfl | rfl | rfl
    · simp only [Nat.add_zero]; rw [a1, b1, s1, s4]; exact ⟨rfl, rfl⟩
    · rw [a2, b2, s2, s5]; exact ⟨rfl, rfl⟩
    · rw [a3, b3, s3, s6]; exact ⟨rfl, rfl⟩
  have hshared : ∀ (i i' v v' u u' : Nat), m.vidx[i]? = some v → m.vidx[i']? = some v' → m.nidx[i]? = some u →
      m.nidx[i']? = some u' → (∀ j < 3, m.verts[3 * v + j]? = m.verts[3 * v' + j]? ∧
        m.norms[3 * u + j]? = m.norms[3 * u' + j]?) → (∀ ts, m.tex = some ts → ts[i / 3]? = ts[i' / 3]?) →
      new[i]? = new[i']? := by
    intro i i' v v' u u' a1 a2 a3 a4 a5 a6
    obtain ⟨k, q, b1, b2, b3⟩ := h5 i v u ((hzip i v u).2 ⟨a1, a3⟩)
    obtain ⟨k', q', c1, c2, c3⟩ := h5 i' v' u' ((hzip i' v' u').2 ⟨a2, a4⟩)
    rw [Nat.zero_add] at b1 c1
    obtain ⟨p1, p2, p3, p4, p5, p6, p7⟩ := key_spec _ _ _ _ _ b1
    obtain ⟨r1, r2, r3, r4, r5, r6, r7⟩ := key_spec _ _ _ _ _ c1
    have e0 := a5 0 (by omega)
    have e1 := a5 1 (by omega)
    have e2 := a5 2 (by omega)
    simp only [Nat.add_zero, p1, p2, p3, p4, p5, p6, r1, r2, r3, r4, r5, r6, Option.some.injEq] at e0 e1 e2
    have e3 : k.t = k'.t := by
      have : texAt m.tex i = texAt m.tex i' := by
        cases hts : m.tex with
        | none => rfl
        | some ts => simp only [texAt, a6 ts hts]
      rw [p7, r7] at this
      exact Option.some.inj this
    have e4 : k = k' := by
      obtain ⟨_, _, _, _, _, _, _⟩ := k
      obtain ⟨_, _, _, _, _, _, _⟩ := k'
      simp only at e0 e1 e2 e3
      simp [e0, e1, e2, e3]
    subst e4
    rw [b2, c2]
    obtain ⟨l1, g1⟩ := List.getElem?_eq_some_iff.1 b3
    obtain ⟨l2, g2⟩ := List.getElem?_eq_some_iff.1 c3
    rw [(h3.getElem_inj_iff).1 (g1.trans g2.symm)]
  have hused : ∀ k < (hash.flatMap fun k : Key K => [k.x, k.y, k.z]).length / 3, ∃ i : Nat, new[i]? = some k := by
    intro k hk
    rw [v1] at hk
    exact h6 k (by omega)
  by_cases hn : n = 0
  · refine ⟨_, by simp only [gen, hd, Option.bind_some]; rw [if_neg hthree, if_pos hn], ?_⟩
    have hthree' := h.three
    constructor
    · refine ⟨?_, hlen⟩
      show 3 * (new.length / 3) = new.length
      omega
    · show 3 * ((hash.flatMap fun k : Key K => [k.x, k.y, k.z]).length / 3) = _ ∧
        3 * ((hash.flatMap fun k : Key K => [k.nx, k.ny, k.nz]).length / 3) = _ ∧
        (hash.flatMap fun k : Key K => [k.nx, k.ny, k.nz]).length / 3 =
          (hash.flatMap fun k : Key K => [k.x, k.y, k.z]).length / 3
      rw [v1, n1]
      omega
    · exact hbasic
    · exact hshared
    · exact hused
    · intro _; rfl
    · intro h0; omega
  · have hn0 : 0 < n := Nat.pos_of_ne_zero hn
    obtain ⟨ts, hts⟩ := Option.isSome_iff_exists.1 (h.tsome hn0)
    have htk : ∀ k ∈ hash, k.t.isSome := by
      intro k hk
      obtain ⟨q, hq, rfl⟩ := List.mem_iff_getElem.1 hk
      obtain ⟨i, hi⟩ := h6 q hq
      obtain ⟨v, u, key', e1, e2, e3, e4⟩ := hcorner i q hi
      rw [List.getElem?_eq_getElem hq] at e3
      simp only [Option.some.injEq] at e3
      rw [e3]
      have := (key_spec _ _ _ _ _ e4).2.2.2.2.2.2
      simp only [texAt, hts, Option.map_eq_some_iff] at this
      obtain ⟨t, -, ht⟩ := this
      rw [← ht]; rfl
    obtain ⟨f1, f2⟩ := filterMap_some (fun k : Key K => k.t) hash htk
    have hass : 3 * ((some (hash.filterMap fun k : Key K => k.t)).getD []).length =
        (hash.flatMap fun k : Key K => [k.x, k.y, k.z]).length := by
      rw [v1]; simp [f1]
    obtain ⟨u1, u2⟩ := flat2 (α := Int) (β := F) (fun j : Int => [(j : F) / (n : F) + 1 / (2 * (n : F)), 0])
      (fun j : Int => (j : F) / (n : F) + 1 / (2 * (n : F))) (fun _ => 0) (fun k => rfl)
      (hash.filterMap fun k : Key K => k.t)
    refine ⟨_, by
      simp only [gen, hd, Option.bind_some]; rw [if_neg hthree, if_neg hn, if_pos hass], ?_⟩
    have hthree' := h.three
    constructor
    · refine ⟨?_, hlen⟩
      show 3 * (new.length / 3) = new.length
      omega
    · show 3 * ((hash.flatMap fun k : Key K => [k.x, k.y, k.z]).length / 3) = _ ∧
        3 * ((hash.flatMap fun k : Key K => [k.nx, k.ny, k.nz]).length / 3) = _ ∧
        (hash.flatMap fun k : Key K => [k.nx, k.ny, k.nz]).length / 3 =
          (hash.flatMap fun k : Key K => [k.x, k.y, k.z]).length / 3
      rw [v1, n1]
      omega
    · exact hbasic
    · exact hshared
    · exact hused
    · intro h0; omega
    · intro _
      have hcount : (hash.filterMap fun k : Key K => k.t).length =
          (hash.flatMap fun k : Key K => [k.x, k.y, k.z]).length / 3 := by
        rw [f1, v1]; omega
      refine ⟨uv n (hash.filterMap fun k : Key K => k.t), ts, ?_, ?_, hts, ?_⟩
      · simp only [Option.getD_some, hcount]
      · simp only [uv, u1, hcount]
      · intro i k hik
        obtain ⟨v, u, key', e1, e2, e3, e4⟩ := hcorner i k hik
        have htx := (key_spec _ _ _ _ _ e4).2.2.2.2.2.2
        simp only [texAt, hts, Option.map_eq_some_iff] at htx
        obtain ⟨t, ht1, ht2⟩ := htx
        obtain ⟨w1, w2⟩ := u2 k t (by rw [f2 k key' e3, ← ht2])
        have hb := h.tin ts hts hn0 t (List.mem_of_getElem? ht1)
        have hnF : (0 : F) < n := by exact_mod_cast hn0
        have hmul : (n : F) * ((t : F) / (n : F) + 1 / (2 * (n : F))) = t + 1 / 2 := by
          field_simp
        refine ⟨t, _, ht1, w1, w2, ?_, ?_⟩
        · rw [hmul]; linarith [half_pos (zero_lt_one' F)]
        · rw [hmul]; linarith [half_lt_self (zero_lt_one' F)]

/-- Two triangles of a square that share two corners, with different materials. -/
def exMesh : Mesh Nat :=
  ⟨[0, 0, 0, 1, 0, 0, 1, 1, 0, 0, 1, 0], [0, 1, 2, 0, 2, 3], [0, 0, 1], [0, 0, 0, 0, 0, 0], some [0, 1]⟩

/-- The hypotheses of `C156_mesh` hold for it; corners on the border of the materials are doubled. -/
example : Valid 2 exMesh := by
  constructor <;> simp [exMesh]

example : (gen (F := ℚ) 2 exMesh).any (fun C => decide (C.nVert = 6 ∧ C.idx = [0, 1, 2, 3, 4, 5])) = true := by
  decide +kernel

example : (gen (F := ℚ) 0 { exMesh with tex := none }).any (fun C => decide (C.nVert = 4 ∧
    C.idx = [0, 1, 2, 0, 2, 3])) = true := by
  decide +kernel

/-- Another array of corners would not do: `Same` does not hold if two indices are exchanged. -/
example : ¬ ∃ C : Calls Nat ℚ, C.idx = [1, 0, 2, 0, 2, 3] ∧ C.verts = exMesh.verts ∧
    Same 0 { exMesh with tex := none } C := by
  rintro ⟨C, h1, h2, h⟩
  obtain ⟨-, v, u, e1, -, e3⟩ := h.corner 0 1 (by rw [h1]; rfl)
  simp [exMesh] at e1
  subst e1
  have := (e3 0 (by omega)).1
  rw [h2] at this
  simp [exMesh] at this

end Verif.MeshDe
