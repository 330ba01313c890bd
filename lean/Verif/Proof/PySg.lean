import Verif.Model.PySg
import Verif.Prop.SgFk

/-!
# Lemmas for C125
-/

namespace Verif.PySg

open Verif.Sg Verif.Tf

variable {P K : Type}

@[simp] theorem Res.ok_bind {α β : Type} (a : α) (f : α → Res β) : (Res.ok a).bind f = f a := rfl
@[simp] theorem Res.exc_bind {α β : Type} (e : Exc) (f : α → Res β) :
    (Res.exc e).bind f = .exc e := rfl

theorem clean_of {α : Type} {g : Graph P} (h : g.dirty = false) (r : Res α) : clean g r = r := by
  simp [clean, h]

/-- A graph that was indexed is clean. -/
theorem index_clean {g g' : Graph P} (h : index g = some (Status.ok, g')) : g'.dirty = false := by
  unfold index at h
  split at h
  · rename_i hd
    simp only [Bool.not_eq_true', Option.some.injEq, Prod.mk.injEq, true_and] at hd h
    rw [← h]; exact hd
  · split at h
    · simp at h
    · split at h
      · simp at h
      · simp only [Option.some.injEq, Prod.mk.injEq, true_and] at h
        rw [← h]

/-- What the queries of C say of an indexed graph, by the list of its names. -/
structure Named (os : List (Op P)) (g : Graph P) (ns cs : List String) : Prop where
  clean : g.dirty = false
  nodup : ns.Nodup
  mem : ∀ n, n ∈ ns ↔ (contents os n).isSome
  count : Sg.frameCount g = ns.length
  id : ∀ (i : Nat) n, ns[i]? = some n → Sg.frameId g n = (i : Int)
  no : ∀ n, n ≠ "" → n ∉ ns → Sg.frameId g n = frameNone
  name : ∀ (i : Nat) n, ns[i]? = some n → Sg.frameName g i = some n
  ne : "" ∉ ns
  parent : ∀ n f, contents os n = some f →
    Sg.frameParent g (Sg.frameId g n) = some (Sg.frameId g f.parent) ∧
      (f.parent = "" ∨ f.parent ∈ ns)
  cnodup : cs.Nodup
  cmem : ∀ c, c ∈ cs ↔ UsesConfig (contents os) c
  ccount : Sg.configCount g = some cs.length
  cid : ∀ (i : Nat) c, cs[i]? = some c → Sg.configId g c = (i : Int)
  cno : ∀ c, c ∉ cs → Sg.configId g c = configNone
  cname : ∀ (i : Nat) c, cs[i]? = some c → Sg.configName g i = some c

/-- A list with given distinct elements. -/
theorem exists_list {α : Type} (n : Nat) (p : Nat → α → Prop) (h : ∀ k, k < n → ∃ a, p k a) :
    ∃ l : List α, l.length = n ∧ ∀ (k : Nat) a, l[k]? = some a → p k a := by
  induction n with
  | zero => exact ⟨[], rfl, fun k a h => by simp at h⟩
  | succ n ih =>
    obtain ⟨l, h1, h2⟩ := ih (fun k hk => h k (by omega))
    obtain ⟨a, ha⟩ := h n (by omega)
    refine ⟨l ++ [a], by simp [h1], fun k b hb => ?_⟩
    rcases lt_trichotomy k n with hk | hk | hk
    · rw [List.getElem?_append_left (by omega)] at hb
      exact h2 k b hb
    · subst hk
      rw [← h1, List.getElem?_concat_length] at hb
      cases hb; exact ha
    · have : (l ++ [a])[k]? = none := List.getElem?_eq_none (by simp [h1]; omega)
      rw [this] at hb; simp at hb

theorem nodup_of_inj {α : Type} {l : List α} (f : α → Int)
    (h : ∀ (k : Nat) a, l[k]? = some a → f a = (k : Int)) : l.Nodup := by
  rw [List.nodup_iff_getElem?_ne_getElem?]
  intro i j hij hj he
  have hi : i < l.length := by omega
  have h1 := h i _ (List.getElem?_eq_getElem hi)
  have h2 := h j _ (List.getElem?_eq_getElem hj)
  rw [List.getElem?_eq_getElem hi, List.getElem?_eq_getElem hj] at he
  have : l[i] = l[j] := by simpa using he
  rw [this, h2] at h1
  omega

theorem named {os : List (Op P)} {g g' : Graph P} (hr : run create os = some g)
    (hf : Forest (contents os)) (he : contents os "" = none) (hch : g.dirty = true ∨ g.map ≠ [])
    (hi : index g = some (Status.ok, g')) : ∃ ns cs, Named os g' ns cs := by
  obtain ⟨h1, h2⟩ := C49_order_partial os g g' hr hf he hi
  obtain ⟨n, h3, h4, h5, h6, h7, -, -⟩ := C49_configs_partial os g g' hr hf he hch hi
  obtain ⟨ns, n1, n2⟩ := exists_list (Sg.frameCount g')
    (fun i n => ∃ f, contents os n = some f ∧ Sg.frameName g' i = some n ∧ Sg.frameId g' n = i) h2
  obtain ⟨cs, c1, c2⟩ := exists_list n
    (fun k c => UsesConfig (contents os) c ∧ Sg.configId g' c = k) h6
  have nid : ∀ (i : Nat) n, ns[i]? = some n → Sg.frameId g' n = (i : Int) := fun i n h =>
    (n2 i n h).choose_spec.2.2
  have nmem : ∀ n, n ∈ ns ↔ (contents os n).isSome := by
    intro n
    constructor
    · intro h
      obtain ⟨k, hk⟩ := List.mem_iff_getElem?.1 h
      obtain ⟨f, h, -⟩ := n2 k n hk
      rw [h]; rfl
    · intro h
      obtain ⟨f, hf⟩ := Option.isSome_iff_exists.1 h
      obtain ⟨a, b, c, -⟩ := h1 n f hf
      have hk : (Sg.frameId g' n).toNat < ns.length := by omega
      have e := List.getElem?_eq_getElem hk
      obtain ⟨f', -, e2, -⟩ := n2 _ _ e
      rw [Int.toNat_of_nonneg a, c] at e2
      simp only [Option.some.injEq] at e2
      rw [e2]; exact List.getElem_mem hk
  have cmem : ∀ c, c ∈ cs ↔ UsesConfig (contents os) c := by
    intro c
    constructor
    · intro h
      obtain ⟨k, hk⟩ := List.mem_iff_getElem?.1 h
      exact (c2 k c hk).1
    · intro h
      obtain ⟨a, b, -⟩ := h4 c h
      have hk : (Sg.configId g' c).toNat < cs.length := by omega
      have e := List.getElem?_eq_getElem hk
      have e2 := (c2 _ _ e).2
      rw [Int.toNat_of_nonneg a] at e2
      have := h7 c _ h e2.symm
      rw [this]; exact List.getElem_mem hk
  have nno : ∀ n, n ≠ "" → n ∉ ns → Sg.frameId g' n = frameNone := by
    intro n hne hn
    rw [nmem] at hn
    obtain ⟨s, hs, hc⟩ := reach_indexed (reach_run reach_create hr) hi (forest_acyclic hr hf)
      (by intro f hm h0; rw [mem_map_iff hr, h0, he] at hm; simp at hm)
    have hnone : Sg.find g'.map n = none := by
      rw [hc.1, find_run hr]
      cases h : contents os n with
      | none => rfl
      | some f => rw [h] at hn; simp at hn
    unfold Sg.frameId
    rw [if_neg hne, hnone]
  refine ⟨ns, cs, ?_⟩
  constructor
  · exact index_clean hi
  · exact nodup_of_inj (Sg.frameId g') nid
  · exact nmem
  · exact n1.symm
  · exact nid
  · exact nno
  · exact fun i n h => (n2 i n h).choose_spec.2.1
  · rw [nmem, he]; simp
  · intro n f h
    obtain ⟨-, -, -, -, e, -, h8, h9⟩ := h1 n f h
    refine ⟨e, ?_⟩
    by_cases hp : f.parent = ""
    · exact Or.inl hp
    · right
      by_contra hc
      have := h9 hp
      rw [nno _ hp hc] at this
      unfold frameNone at this; omega
  · exact nodup_of_inj (Sg.configId g') (fun k c h => (c2 k c h).2)
  · exact cmem
  · rw [c1]; exact h3
  · exact fun i c h => (c2 i c h).2
  · intro c hc
    rw [cmem] at hc
    exact h5 c hc
  · intro i c h
    have h8 := (h4 c (c2 i c h).1).2.2
    rw [(c2 i c h).2] at h8
    exact h8

end Verif.PySg
