import Verif.Model.MtlScan
import Verif.Prop.WfScan

/-!
# C142: what the scanner makes of an MTL file
-/

namespace Verif.MtlScan

open Verif.Wf Verif.Flex
open Verif.WfScan (Plain Blanks Name Word wordChar init_zero word_stops blanks_word name_stops text_stops
  mNum_text notNl_of_blank lex_inv)

/-! ## Specification -/

/-- What a line says. -/
inductive Item
  | nothing
  | newmtl (n : List Char)
  | num (s : Sc) (x : Token)
  | col (c : Col) (x y z : Token)

/-- Keywords. -/
def numKw : Sc → List Char | .weight => ['N', 's'] | .ior => ['N', 'i'] | .alpha => ['d']
def colKw : Col → List Char
  | .ambient => ['K', 'a'] | .diffuse => ['K', 'd'] | .specular => ['K', 's'] | .emission => ['K', 'e']
def skipKw : List (List Char) := [['i', 'l', 'l', 'u', 'm'], ['m', 'a', 'p', '_', 'K', 'd']]

/-- How lines are written. -/
inductive IsLine : Item → List Char → Prop
  | empty {e} : LineEnd e → IsLine .nothing e
  | skip {b w t} : Blank b → w ∈ skipKw → (∀ c ∈ t, notNl c = true) →
      IsLine .nothing (b ++ w ++ t ++ ['\n'])
  | newmtl {b s n e} : Blank b → Blanks s → Name n → LineEnd e → Stops isGraph e →
      IsLine (.newmtl n) (b ++ ['n', 'e', 'w', 'm', 't', 'l'] ++ s ++ n ++ e)
  | num {b s e x} (k : Sc) : Blank b → Blanks s → LineEnd e → Plain x →
      IsLine (.num k x) (b ++ numKw k ++ s ++ x.text ++ e)
  | col {b s s1 s2 e x y z} (k : Col) : Blank b → Blanks s → Blanks s1 → Blanks s2 → LineEnd e →
      Plain x → Plain y → Plain z →
      IsLine (.col k x y z) (b ++ colKw k ++ s ++ x.text ++ s1 ++ y.text ++ s2 ++ z.text ++ e)

def Item.isNew : Item → Bool | .newmtl _ => true | _ => false
def Item.isProp : Item → Bool | .num _ _ => true | .col _ _ _ _ => true | _ => false

/-- Every property line has a `newmtl` line before it. -/
def Started (l : List Item) : Prop :=
  ∀ pre i post, l = pre ++ i :: post → i.isProp = true → ∃ j ∈ pre, j.isNew = true

/-- The last value given to a number in some lines. -/
def lastNum (s : Sc) (l : List Item) : Option Rat :=
  (l.filterMap fun i => match i with
    | .num s' x => if s' = s then some x.value else none
    | _ => none).getLast?

/-- The last value given to a colour in some lines. -/
def lastCol (c : Col) (l : List Item) : Option (Rat × Rat × Rat) :=
  (l.filterMap fun i => match i with
    | .col c' x y z => if c' = c then some (x.value, y.value, z.value) else none
    | _ => none).getLast?

/-- A material described by a name and the lines after it. -/
def Describes (n : List Char) (l : List Item) (m : Mat) : Prop :=
  m.name = String.ofList n ∧
  (∀ s, m.hasNum s = (lastNum s l).isSome ∧ m.num s = (lastNum s l).getD 0) ∧
  ∀ c, m.hasCol c = (lastCol c l).isSome ∧
    (m.col c 0, m.col c 1, m.col c 2) = (lastCol c l).getD (0, 0, 0)

/-! ## Proofs -/

/-- What a line does to a material. -/
def onMat (m : Mat) : Item → Mat
  | .num s x => setNum s x.value m
  | .col c x y z => setHas c (setCol c 2 z.value (setCol c 1 y.value (setCol c 0 x.value m)))
  | _ => m

/-- What a line does to the materials, the last one first. -/
def add (ms : List Mat) : Item → List Mat
  | .newmtl n => Mat.new (String.ofList n) :: ms
  | i => match ms with
    | [] => []
    | m :: ms => onMat m i :: ms

abbrev R : E → List (Rule E) := fun e => rulesOf e.st

variable {o : Out E}

theorem tok_step {e e' : E} {m : List Char → Nat} {a : List Char → E → Out E}
    (hst : rulesOf e.st = [⟨m, a⟩, errRule]) {t r : List Char} (hlen : m (t ++ r) = t.length)
    (hp : 0 < t.length) (ha : a t e = .ok e') (h : Run R e' r o) : Run R e (t ++ r) o := by
  refine Run.step (r := ⟨m, a⟩) ?_ hlen hp ha h
  simp only [R, hst]
  exact munch_pair (by simp only; rw [hlen]; exact hp)

theorem numBlanks_len {t : Token} (ht : Plain t) {b r : List Char} (hb : Blanks b)
    (hr : Stops isBlank r) :
    mNumBlanks (t.text ++ b ++ r) = (t.text ++ b).length ∧ 0 < (t.text ++ b).length ∧
      parseFloat (t.text ++ b) = t.value := by
  have hn := mNum_text ht.ok ht.exp (blank_sep hb.1 hb.2 r)
  have hbl : 0 < b.length := List.length_pos_iff.2 hb.2
  refine ⟨?_, by simp only [List.length_append]; omega, ?_⟩
  · rw [List.append_assoc, mNumBlanks, hn.1, List.drop_left, mBlanks_app hb.1 hr, if_neg (by omega)]
    simp
  · have hv := C62_float_partial t ht.ok ht.exp ht.int ht.frac [] b (by simp) hb.1
    simpa using hv

theorem numEnd_len {t : Token} (ht : Plain t) {b r : List Char} (hb : Blank b)
    (hs : Sep (b ++ r)) (hr : Stops isBlank r) :
    mNumEnd (t.text ++ b ++ r) = (t.text ++ b).length ∧ 0 < (t.text ++ b).length ∧
      parseFloat (t.text ++ b) = t.value := by
  have hn := mNum_text ht.ok ht.exp hs
  refine ⟨?_, by simp only [List.length_append]; omega, ?_⟩
  · rw [List.append_assoc, mNumEnd, hn.1, List.drop_left, mBlanks_app hb hr, if_neg (by omega)]
    simp
  · have hv := C62_float_partial t ht.ok ht.exp ht.int ht.frac [] b (by simp) hb
    simpa using hv

theorem eol_step {ms : List Mat} {v : Col} {e r : List Char} (he : LineEnd e)
    (h : Run R ⟨.initial, [], ms, v⟩ r o) : Run R ⟨.eol, [], ms, v⟩ (e ++ r) o := by
  have hm := mEnd_app he r
  exact tok_step (a := go .initial) rfl hm.1 hm.2 rfl h

theorem ignore_zero {b w kw r : List Char} (hb : Blank b) (hw : Word w) (hk : ∀ c ∈ kw, wordChar c = true)
    (hr : Stops wordChar r) (h : ¬ kw <+: w) : mIgnore kw (b ++ (w ++ r)) = 0 := by
  rw [mIgnore, (takeWhile_app hb (word_stops hw r)).2, if_neg]
  rw [List.isPrefixOf_iff_prefix]
  intro hp
  rcases List.prefix_or_prefix_of_prefix hp (List.prefix_append w r) with h1 | ⟨u, rfl⟩
  · exact h h1
  · cases u with
    | nil => exact h (by simp)
    | cons c u =>
      rw [List.prefix_append_right_inj] at hp
      obtain ⟨t, rfl⟩ := hp
      have h1 := hk c (by simp)
      have h2 := hr c (by simp)
      rw [h1] at h2
      simp at h2

/-- At the start of a line with a word only its rule matches. -/
theorem init_other {b w r : List Char} (hb : Blank b) (hw : Word w) (hr : Stops wordChar r) :
    mEnd (b ++ (w ++ r)) = 0 ∧
    (∀ kw, Word kw → kw ≠ w → mKw kw (b ++ (w ++ r)) = 0) ∧
    (∀ kw, Word kw → ¬ kw <+: w → mIgnore kw (b ++ (w ++ r)) = 0) :=
  ⟨(init_zero hb hw hr).1, (init_zero hb hw hr).2, fun _ hk h => ignore_zero hb hw hk.2.1 hr h⟩

theorem init_step {l1 l2 : List (Rule E)} {kw : List Char} {a : List Char → E → Out E}
    (heq : rulesOf .initial = l1 ++ ⟨mKw kw, a⟩ :: (l2 ++ [errRule])) {b s r : List Char}
    {e e' : E} (hst : e.st = .initial)
    (hw : Word kw) (hz : ∀ q ∈ l1 ++ l2, q.len (b ++ (kw ++ (s ++ r))) = 0)
    (hb : Blank b) (hs : Blanks s) (hr : Stops isBlank r) (ha : a (b ++ kw ++ s) e = .ok e')
    (h : Run R e' r o) : Run R e (b ++ (kw ++ (s ++ r))) o := by
  have hk : Stops isBlank kw := by simpa using word_stops hw []
  have hlen := mKw_app hb hk hw.1 hs.1 hs.2 hr
  have e1 : b ++ (kw ++ (s ++ r)) = b ++ kw ++ s ++ r := by simp
  rw [e1] at hz ⊢
  have hp : 0 < (b ++ kw ++ s).length := by
    have := List.length_pos_iff.2 hw.1
    simp only [List.length_append]; omega
  refine Run.step (r := ⟨mKw kw, a⟩) ?_ hlen hp ha h
  simp only [R, hst, heq]
  exact munch_one (fun q hq => hz q (by simp [hq])) (fun q hq => hz q (by simp [hq]))
    (by simp only; rw [hlen]; exact hp)

macro "kw_zero" hb:term ", " hs:term ", " r:term ", " w:term : tactic => `(tactic|
  (have hz := init_other (w := $w) $hb (by decide) (blanks_word $hs $r)
   simp only [List.cons_append, List.nil_append, List.forall_mem_cons]
   refine ⟨?_, ?_, ?_, ?_, ?_, ?_, ?_, ?_, ?_, ?_, fun _ h => absurd h List.not_mem_nil⟩
   all_goals first
     | exact hz.1
     | exact hz.2.1 _ (by decide) (by decide)
     | exact hz.2.2 _ (by decide) (by decide)))

section keywords

variable {b s r : List Char} {ms : List Mat} {v : Col}

theorem kw_new (hb : Blank b) (hs : Blanks s) (hr : Stops isBlank r)
    (h : Run R ⟨.newmtl, [], ms, v⟩ r o) :
    Run R ⟨.initial, [], ms, v⟩ (b ++ (['n', 'e', 'w', 'm', 't', 'l'] ++ (s ++ r))) o := by
  refine init_step (l1 := [_]) (l2 := [_, _, _, _, _, _, _, _, _]) rfl rfl (by decide) ?_ hb hs hr rfl h
  kw_zero hb, hs, r, ['n', 'e', 'w', 'm', 't', 'l']

theorem kw_num (k : Sc) (hb : Blank b) (hs : Blanks s) (hr : Stops isBlank r)
    (h : Run R ⟨.num k, [], ms, v⟩ r o) :
    Run R ⟨.initial, [], ms, v⟩ (b ++ (numKw k ++ (s ++ r))) o := by
  cases k with
  | weight =>
    refine init_step (l1 := [_, _]) (l2 := [_, _, _, _, _, _, _, _]) rfl rfl (by decide) ?_ hb hs hr rfl h
    kw_zero hb, hs, r, ['N', 's']
  | ior =>
    refine init_step (l1 := [_, _, _]) (l2 := [_, _, _, _, _, _, _]) rfl rfl (by decide) ?_ hb hs hr rfl h
    kw_zero hb, hs, r, ['N', 'i']
  | alpha =>
    refine init_step (l1 := [_, _, _, _, _, _, _, _]) (l2 := [_, _]) rfl rfl (by decide) ?_ hb hs hr rfl h
    kw_zero hb, hs, r, ['d']

theorem kw_col (k : Col) {m : Mat} (hb : Blank b) (hs : Blanks s) (hr : Stops isBlank r)
    (h : Run R ⟨.v0, [.k k], m :: ms, k⟩ r o) :
    Run R ⟨.initial, [], m :: ms, v⟩ (b ++ (colKw k ++ (s ++ r))) o := by
  cases k with
  | ambient =>
    refine init_step (l1 := [_, _, _, _]) (l2 := [_, _, _, _, _, _]) rfl rfl (by decide) ?_ hb hs hr rfl h
    kw_zero hb, hs, r, ['K', 'a']
  | diffuse =>
    refine init_step (l1 := [_, _, _, _, _]) (l2 := [_, _, _, _, _]) rfl rfl (by decide) ?_ hb hs hr rfl h
    kw_zero hb, hs, r, ['K', 'd']
  | specular =>
    refine init_step (l1 := [_, _, _, _, _, _]) (l2 := [_, _, _, _]) rfl rfl (by decide) ?_ hb hs hr rfl h
    kw_zero hb, hs, r, ['K', 's']
  | emission =>
    refine init_step (l1 := [_, _, _, _, _, _, _]) (l2 := [_, _, _]) rfl rfl (by decide) ?_ hb hs hr rfl h
    kw_zero hb, hs, r, ['K', 'e']

/-- An ignored line. -/
theorem kw_skip {w t : List Char} (hb : Blank b) (hw : w ∈ skipKw) (ht : ∀ c ∈ t, notNl c = true)
    (h : Run R ⟨.initial, [], ms, v⟩ r o) :
    Run R ⟨.initial, [], ms, v⟩ (b ++ w ++ t ++ ['\n'] ++ r) o := by
  have hww : ∀ c ∈ w, notNl c = true := by
    revert w; decide
  have hk0 : Word w := by revert w; decide
  have hall : ∀ c ∈ b ++ w ++ t, notNl c = true := by
    intro c hc
    simp only [List.mem_append] at hc
    rcases hc with (hc | hc) | hc
    exacts [notNl_of_blank hb c hc, hww c hc, ht c hc]
  have hsp := takeWhile_app (r := '\n' :: r) hall (Stops.cons _ (by decide))
  have e0 : b ++ w ++ t ++ ['\n'] ++ r = b ++ w ++ t ++ '\n' :: r := by simp
  have e1 : b ++ w ++ t ++ '\n' :: r = b ++ (w ++ (t ++ '\n' :: r)) := by simp
  have hdw : (b ++ w ++ t ++ '\n' :: r).dropWhile isBlank = w ++ (t ++ '\n' :: r) := by
    rw [e1]; exact (takeWhile_app hb (word_stops hk0 _)).2
  have hlen : mIgnore w (b ++ w ++ t ++ ['\n'] ++ r) = (b ++ w ++ t ++ ['\n']).length := by
    rw [e0, mIgnore, hdw, if_pos (by rw [List.isPrefixOf_iff_prefix]; exact List.prefix_append _ _),
      hsp.2, if_neg (by simp), hsp.1]
    simp only [List.length_append, List.length_singleton]
  have hp : 0 < (b ++ w ++ t ++ ['\n']).length := by simp
  have hothers : mEnd (b ++ (w ++ (t ++ '\n' :: r))) = 0 ∧
      (∀ kw, Word kw → kw.head? ≠ w.head? → mKw kw (b ++ (w ++ (t ++ '\n' :: r))) = 0 ∧
        mIgnore kw (b ++ (w ++ (t ++ '\n' :: r))) = 0) := by
    refine ⟨WfScan.end_other hb hk0, fun kw hk hne => ⟨?_, ?_⟩⟩
    · refine mKw_ne hb (word_stops hk0 _) ?_
      rintro ⟨c, r', -, heq⟩
      obtain ⟨x, kw, rfl⟩ := List.exists_cons_of_ne_nil hk.1
      obtain ⟨y, w, rfl⟩ := List.exists_cons_of_ne_nil hk0.1
      simp only [List.cons_append, List.cons.injEq] at heq
      exact hne (by simp [heq.1])
    · rw [mIgnore, (takeWhile_app hb (word_stops hk0 _)).2, if_neg]
      rw [List.isPrefixOf_iff_prefix]
      rintro ⟨r', heq⟩
      obtain ⟨x, kw, rfl⟩ := List.exists_cons_of_ne_nil hk.1
      obtain ⟨y, w, rfl⟩ := List.exists_cons_of_ne_nil hk0.1
      simp only [List.cons_append, List.cons.injEq] at heq
      exact hne (by simp [heq.1])
  refine Run.step (r := ⟨mIgnore w, fun _ e => .ok e⟩) ?_ hlen hp rfl h
  have hlen' := hlen
  rw [e0, e1] at hlen' ⊢
  have hnil : ∀ {s : List Char}, ∀ q ∈ ([] : List (Rule E)), q.len s = 0 :=
    fun _ h => absurd h List.not_mem_nil
  simp only [skipKw, List.mem_cons, List.not_mem_nil, or_false] at hw
  rcases hw with rfl | rfl
  · refine munch_one (l1 := [_, _, _, _, _, _, _, _, _]) (l2 := [_]) ?_ ?_
      (by simp only; rw [hlen']; exact hp)
    · simp only [List.forall_mem_cons]
      refine ⟨hothers.1, ?_, ?_, ?_, ?_, ?_, ?_, ?_, ?_, hnil⟩ <;>
        exact (hothers.2 _ (by decide) (by decide)).1
    · simp only [List.forall_mem_cons]
      exact ⟨(hothers.2 _ (by decide) (by decide)).2, hnil⟩
  · refine munch_one (l1 := [_, _, _, _, _, _, _, _, _, _]) (l2 := []) ?_ hnil
      (by simp only; rw [hlen']; exact hp)
    simp only [List.forall_mem_cons]
    refine ⟨hothers.1, ?_, ?_, ?_, ?_, ?_, ?_, ?_, ?_, (hothers.2 _ (by decide) (by decide)).2, hnil⟩ <;>
      exact (hothers.2 _ (by decide) (by decide)).1

/-- An empty line. -/
theorem kw_end {e : List Char} (he : LineEnd e) (h : Run R ⟨.initial, [], ms, v⟩ r o) :
    Run R ⟨.initial, [], ms, v⟩ (e ++ r) o := by
  have hm := mEnd_app he r
  refine Run.step (r := ⟨mEnd, fun _ e => .ok e⟩) ?_ hm.1 hm.2 rfl h
  have hz : ∀ kw, Word kw → mKw kw (e ++ r) = 0 ∧ mIgnore kw (e ++ r) = 0 := by
    intro kw hk
    obtain ⟨b, e', hb, he', rfl, hs⟩ := he.tail
    have hno : ¬ kw <+: (e' ++ r) := by
      rintro ⟨t, heq⟩
      obtain ⟨x, kw, rfl⟩ := List.exists_cons_of_ne_nil hk.1
      have h1 := hk.2.1 x (by simp)
      have h2 := hk.2.2 x (by simp)
      obtain ⟨c', t', h3, h4⟩ := lineEnd_sep he' r
      rw [← heq] at h3
      simp only [List.cons_append, List.cons.injEq] at h3
      obtain ⟨rfl, -⟩ := h3
      simp only [wordChar, Bool.and_eq_true, Bool.not_eq_true', bne_iff_ne] at h1
      rcases h4 with h4 | rfl | rfl
      · rw [h1.1] at h4; exact absurd h4 (by simp)
      · simp at h2
      · exact h1.2 rfl
    rw [List.append_assoc]
    refine ⟨mKw_ne hb (hs r) ?_, ?_⟩
    · rintro ⟨c, t, -, heq⟩
      exact hno ⟨c :: t, heq.symm⟩
    · rw [mIgnore, (takeWhile_app hb (hs r)).2, if_neg]
      rw [List.isPrefixOf_iff_prefix]
      exact hno
  refine munch_one (l1 := []) (l2 := [_, _, _, _, _, _, _, _, _, _]) (by simp) ?_
    (by simp only; rw [hm.1]; exact hm.2)
  simp only [List.forall_mem_cons]
  refine ⟨?_, ?_, ?_, ?_, ?_, ?_, ?_, ?_, (hz _ (by decide)).2, (hz _ (by decide)).2,
    fun _ h => absurd h List.not_mem_nil⟩ <;> exact (hz _ (by decide)).1

end keywords

/-- One line. -/
theorem line_step {i : Item} {t : List Char} (h : IsLine i t) (ms : List Mat) (v : Col)
    (hp : i.isProp = true → ms ≠ []) :
    ∃ v', ∀ r o, Run R ⟨.initial, [], add ms i, v'⟩ r o → Run R ⟨.initial, [], ms, v⟩ (t ++ r) o := by
  have hadd : add ms .nothing = ms := by cases ms <;> rfl
  cases h with
  | empty he => exact ⟨v, fun r o hr => kw_end he (by rwa [hadd] at hr)⟩
  | skip hb hw ht => exact ⟨v, fun r o hr => kw_skip hb hw ht (by rwa [hadd] at hr)⟩
  | @newmtl b s n e hb hs hn he hg =>
    refine ⟨v, fun r o hr => ?_⟩
    simp only [List.append_assoc]
    refine kw_new hb hs (name_stops hn _) ?_
    have hg' : Stops isGraph (e ++ r) := by
      intro c hc
      obtain ⟨b, c', hb, hc', rfl⟩ := he
      refine hg c ?_
      cases b with
      | cons x b => simpa using hc
      | nil => rcases hc' with rfl | ⟨t, rfl, ht⟩ <;> simpa using hc
    exact tok_step (a := pushAct) rfl (mGraph_app hn.2 hg') (List.length_pos_iff.2 hn.1) rfl
      (eol_step he hr)
  | @num b s e x k hb hs he hx =>
    obtain ⟨m, ms, rfl⟩ := List.exists_cons_of_ne_nil (hp rfl)
    refine ⟨v, fun r o hr => ?_⟩
    simp only [List.append_assoc]
    refine kw_num k hb hs (text_stops hx.ok _) ?_
    have hsep := lineEnd_sep he r
    obtain ⟨b', e', hb', he', rfl, hs'⟩ := he.tail
    rw [List.append_assoc] at hsep ⊢
    obtain ⟨h1, h2, h3⟩ := numEnd_len hx hb' hsep (hs' r)
    rw [← List.append_assoc]
    refine tok_step (a := numAct k) rfl h1 h2 ?_ (eol_step he' hr)
    simp only [numAct, onCurrent, h3]
    rfl
  | @col b s s1 s2 e x y z k hb hs hs1 hs2 he hx hy hz =>
    obtain ⟨m, ms, rfl⟩ := List.exists_cons_of_ne_nil (hp rfl)
    refine ⟨k, fun r o hr => ?_⟩
    simp only [List.append_assoc]
    refine kw_col k hb hs (text_stops hx.ok _) ?_
    obtain ⟨x1, x2, x3⟩ := numBlanks_len hx hs1 (text_stops hy.ok (s2 ++ (z.text ++ (e ++ r))))
    rw [← List.append_assoc]
    refine tok_step (a := vAct 0 .v1) (e' := ⟨.v1, [.k k], setCol k 0 x.value m :: ms, k⟩)
      rfl x1 x2 (by simp only [vAct, onCurrent, x3]) ?_
    obtain ⟨y1, y2, y3⟩ := numBlanks_len hy hs2 (text_stops hz.ok (e ++ r))
    rw [← List.append_assoc]
    refine tok_step (a := vAct 1 .v2)
      (e' := ⟨.v2, [.k k], setCol k 1 y.value (setCol k 0 x.value m) :: ms, k⟩)
      rfl y1 y2 (by simp only [vAct, onCurrent, y3]) ?_
    have hsep := lineEnd_sep he r
    obtain ⟨b', e', hb', he', rfl, hs'⟩ := he.tail
    rw [List.append_assoc] at hsep ⊢
    obtain ⟨z1, z2, z3⟩ := numEnd_len hz hb' hsep (hs' r)
    rw [← List.append_assoc]
    refine tok_step (a := vLast)
      (e' := ⟨.k k, [], setCol k 2 z.value (setCol k 1 y.value (setCol k 0 x.value m)) :: ms, k⟩)
      rfl z1 z2 (by simp only [vLast, onCurrent, z3]) ?_
    have hm := mEnd_app he' r
    exact tok_step (a := colEnd k) rfl hm.1 hm.2 rfl hr

theorem lines_run (ls : List (Item × List Char)) (h : ∀ p ∈ ls, IsLine p.1 p.2)
    (ms : List Mat) (v : Col)
    (hs : ∀ pre i post, ls.map Prod.fst = pre ++ i :: post → i.isProp = true →
      (∃ j ∈ pre, j.isNew = true) ∨ ms ≠ []) :
    ∃ v', ∀ r o, Run R ⟨.initial, [], (ls.map Prod.fst).foldl add ms, v'⟩ r o →
      Run R ⟨.initial, [], ms, v⟩ (ls.flatMap Prod.snd ++ r) o := by
  induction ls generalizing ms v with
  | nil => exact ⟨v, fun r o hr => by simpa using hr⟩
  | cons p ls ih =>
    obtain ⟨v1, h1⟩ := line_step (h p (by simp)) ms v (fun hp => by
      rcases hs [] p.1 (ls.map Prod.fst) (by simp) hp with ⟨j, hj, -⟩ | hne
      · simp at hj
      · exact hne)
    obtain ⟨v2, h2⟩ := ih (fun q hq => h q (by simp [hq])) (add ms p.1) v1 (by
      intro pre i post he hi
      rcases hs (p.1 :: pre) i post (by simp [he]) hi with ⟨j, hj, hn⟩ | hne
      · rcases List.mem_cons.1 hj with rfl | hj
        · right
          cases hp : p.1 with
          | newmtl n => simp [add]
          | _ => rw [hp] at hn; simp [Item.isNew] at hn
        · exact Or.inl ⟨j, hj, hn⟩
      · right
        obtain ⟨m, ms, rfl⟩ := List.exists_cons_of_ne_nil hne
        cases p.1 <;> simp [add])
    refine ⟨v2, fun r o hr => ?_⟩
    have := h1 _ _ (h2 r o (by simpa using hr))
    simpa using this

theorem add_length (ms : List Mat) (i : Item) :
    (add ms i).length = ms.length + if i.isNew then 1 else 0 := by
  cases i <;> cases ms <;> simp [add, Item.isNew]

theorem fold_length (l : List Item) (ms : List Mat) :
    (l.foldl add ms).length = ms.length + l.countP Item.isNew := by
  induction l generalizing ms with
  | nil => simp
  | cons i l ih =>
    rw [List.foldl_cons, ih, add_length, List.countP_cons]
    omega

/-- Materials before the last one stay. -/
theorem fold_keep (l : List Item) (m : Mat) (ms : List Mat) :
    ∃ ex, l.foldl add (m :: ms) = ex ++ ms := by
  induction l generalizing m ms with
  | nil => exact ⟨[m], rfl⟩
  | cons i l ih =>
    rw [List.foldl_cons]
    cases i with
    | newmtl n =>
      obtain ⟨ex, hex⟩ := ih (Mat.new (String.ofList n)) (m :: ms)
      exact ⟨ex ++ [m], by simp [add, hex]⟩
    | nothing => exact ih _ _
    | num s x => exact ih _ _
    | col c x y z => exact ih _ _

theorem fold_block (l : List Item) (hl : ∀ i ∈ l, i.isNew = false) (m : Mat) (ms : List Mat) :
    l.foldl add (m :: ms) = l.foldl onMat m :: ms := by
  induction l generalizing m with
  | nil => rfl
  | cons i l ih =>
    rw [List.foldl_cons, List.foldl_cons, ← ih (fun j hj => hl j (by simp [hj]))]
    have := hl i (by simp)
    cases i <;> first | rfl | simp [Item.isNew] at this

theorem block_desc (n : List Char) (l : List Item) :
    Describes n l (l.foldl onMat (Mat.new (String.ofList n))) := by
  induction l using List.reverseRecOn with
  | nil => exact ⟨rfl, fun s => ⟨rfl, rfl⟩, fun c => ⟨rfl, rfl⟩⟩
  | append_singleton l i ih =>
    rw [List.foldl_append, List.foldl_cons, List.foldl_nil]
    generalize l.foldl onMat (Mat.new (String.ofList n)) = m at ih
    obtain ⟨h1, h2, h3⟩ := ih
    cases i with
    | nothing =>
      refine ⟨h1, fun s => ?_, fun c => ?_⟩
      · simpa [lastNum, onMat] using h2 s
      · simpa [lastCol, onMat] using h3 c
    | newmtl k =>
      refine ⟨h1, fun s => ?_, fun c => ?_⟩
      · simpa [lastNum, onMat] using h2 s
      · simpa [lastCol, onMat] using h3 c
    | num s' x =>
      refine ⟨h1, fun s => ?_, fun c => ?_⟩
      · by_cases hs : s' = s
        · subst hs; simp [lastNum, onMat, setNum]
        · have hs' : ¬ s = s' := fun e => hs e.symm
          simpa [lastNum, onMat, setNum, hs, hs'] using h2 s
      · simpa [lastCol, onMat, setNum] using h3 c
    | col c' x y z =>
      refine ⟨h1, fun s => ?_, fun c => ?_⟩
      · simpa [lastNum, onMat, setHas, setCol] using h2 s
      · by_cases hc : c' = c
        · subst hc; simp [lastCol, onMat, setHas, setCol]
        · have hc' : ¬ c = c' := fun e => hc e.symm
          simpa [lastCol, onMat, setHas, setCol, hc, hc'] using h3 c

/-! ## The claim -/

/-- **C142**, files of supported lines in which a material is begun before its properties, numbers
without exponents: there is one material per `newmtl`, in order, with exactly the properties given
until the next one, the last value counting.  (`parse` lists them last first.)  Missing: properties
before the first material (`C142_violates_orphan`), exponents (`C141_violates_exponent`). -/
theorem C142_lines_partial (v : Col) (ls : List (Item × List Char)) (h : ∀ p ∈ ls, IsLine p.1 p.2)
    (hs : Started (ls.map Prod.fst)) :
    ∃ ms : List Mat, parse v (ls.flatMap Prod.snd) = .ok ms ∧
      ms.length = (ls.map Prod.fst).countP Item.isNew ∧
      ∀ pre n block post, ls.map Prod.fst = pre ++ .newmtl n :: (block ++ post) →
        (∀ i ∈ block, i.isNew = false) → (∀ i ∈ post.head?, i.isNew = true) →
        ∃ m, ms.reverse[pre.countP Item.isNew]? = some m ∧ Describes n block m := by
  obtain ⟨v', hr⟩ := lines_run ls h [] v (fun pre i post he hi => Or.inl (hs pre i post he hi))
  have hl := hr [] _ (Run.nil _)
  rw [List.append_nil] at hl
  refine ⟨(ls.map Prod.fst).foldl add [], ?_, ?_, ?_⟩
  · rw [parse, hl _ (le_refl _)]
  · rw [fold_length]; simp
  · intro pre n block post he hb hp
    rw [he, List.foldl_append, List.foldl_cons, List.foldl_append]
    have hlen := fold_length pre []
    generalize pre.foldl add [] = ms0 at hlen
    simp only [add]
    rw [fold_block block hb]
    have hkeep : ∃ ex, post.foldl add
        (block.foldl onMat (Mat.new (String.ofList n)) :: ms0) =
        ex ++ block.foldl onMat (Mat.new (String.ofList n)) :: ms0 := by
      cases post with
      | nil => exact ⟨[], rfl⟩
      | cons i post =>
        have := hp i (by simp)
        cases i with
        | newmtl k => exact fold_keep post _ _
        | _ => simp [Item.isNew] at this
    obtain ⟨ex, hex⟩ := hkeep
    refine ⟨_, ?_, block_desc n block⟩
    rw [hex]
    simp only [List.length_nil, Nat.zero_add] at hlen
    rw [List.reverse_append, List.reverse_cons, List.append_assoc, List.getElem?_append_right
      (by simp [hlen])]
    simp [hlen]

/-- The keywords of the format that are understood. -/
def keywords : List (List Char) :=
  ["newmtl".toList, "Ns".toList, "Ni".toList, "Ka".toList, "Kd".toList, "Ks".toList, "Ke".toList,
    "d".toList]

/-- **C142**, other lines: after supported lines, a line that begins with another word is refused,
whatever follows. -/
theorem C142_unknown_partial (v : Col) (ls : List (Item × List Char)) (h : ∀ p ∈ ls, IsLine p.1 p.2)
    (hs : Started (ls.map Prod.fst)) (b w r : List Char) (hb : Blank b) (hw : Word w)
    (hk : w ∉ keywords) (hk' : ∀ k ∈ skipKw, ¬ k <+: w) (hr : Stops wordChar r) :
    parse v (ls.flatMap Prod.snd ++ (b ++ (w ++ r))) = .null := by
  obtain ⟨v', hrun⟩ := lines_run ls h [] v (fun pre i post he hi => Or.inl (hs pre i post he hi))
  have hz := init_other hb hw hr
  have hkw : ∀ kw ∈ keywords, mKw kw (b ++ (w ++ r)) = 0 := by
    intro kw hkw
    refine hz.2.1 kw ?_ (fun he => hk (he ▸ hkw))
    revert kw
    decide
  have hig : ∀ kw ∈ skipKw, mIgnore kw (b ++ (w ++ r)) = 0 := by
    intro kw hkw
    refine hz.2.2 kw ?_ (hk' kw hkw)
    revert kw
    decide
  have hd : 0 < mDot (b ++ (w ++ r)) := by
    cases b with
    | cons c b =>
      have := notNl_of_blank hb c (by simp)
      have : c ≠ '\n' := by simpa [notNl] using this
      simp [mDot, this]
    | nil =>
      obtain ⟨c, w, rfl⟩ := List.exists_cons_of_ne_nil hw.1
      have := hw.2.1 c (by simp)
      have : c ≠ '\n' := by
        simp only [wordChar, Bool.and_eq_true, bne_iff_ne] at this
        exact this.2
      simp [mDot, this]
  have hm : munch (b ++ (w ++ r)) (rulesOf .initial) = some errRule := by
    refine munch_err (l := [_, _, _, _, _, _, _, _, _, _, _]) ?_ hd
    simp only [List.forall_mem_cons]
    refine ⟨hz.1, ?_, ?_, ?_, ?_, ?_, ?_, ?_, ?_, hig _ (by decide), hig _ (by decide),
      fun _ h => absurd h List.not_mem_nil⟩ <;> exact hkw _ (by decide)
  have hne : b ++ (w ++ r) ≠ [] := by simp [hw.1]
  have := hrun _ _ (Run.stop (rules := R)
    (e := ⟨.initial, [], (ls.map Prod.fst).foldl add [], v'⟩) hne hm (fun _ => rfl)) _ (le_refl _)
  rw [parse, this]

/-- **C142 fails** for a property before the first `newmtl`: the current material is null. -/
theorem C142_violates_orphan (v : Col) : parse v "Ns 10\n".toList = .ub := by rfl

/-- Names, flags and values of the diffuse colour of an accepted file. -/
def diffuseOf (s : String) : Option (List (String × Bool × Rat × Rat × Rat)) :=
  match parse .ambient s.toList with
  | .ok ms => some (ms.map fun m =>
      (m.name, m.hasCol .diffuse, m.col .diffuse 0, m.col .diffuse 1, m.col .diffuse 2))
  | _ => none

/-- **C142 fails** for a file that ends within a colour: it is accepted, the colour partly stored. -/
theorem C142_violates_incomplete :
    diffuseOf "newmtl a\nKd 1 2 " = some [("a", false, 1, 2, 0)] := by decide +kernel

/-- **C142 fails** for a colour over two lines. -/
theorem C142_violates_split :
    diffuseOf "newmtl a\nKd 1 2 \n3\n" = some [("a", true, 1, 2, 3)] := by decide +kernel

/-- **C142 fails** for an ignored line at the end of a file without newline: the file is refused. -/
theorem C142_violates_noeol (v : Col) : parse v "newmtl a\nillum 2".toList = .null := by rfl

/-- Lines of the format. -/
example : IsLine (.newmtl ['a']) "newmtl a\n".toList ∧
    IsLine (.num .weight ⟨false, [9, 6], some [5], none⟩) " Ns 96.5\n".toList ∧
    Started [.newmtl ['a'], .num .weight ⟨false, [9, 6], some [5], none⟩] := by
  refine ⟨.newmtl (b := []) (s := [' ']) (n := ['a']) (e := ['\n']) (by simp [Blank])
    ⟨by unfold Blank; decide, by simp⟩ ⟨by simp, by decide⟩ ⟨[], [], by simp [Blank], Or.inl rfl, rfl⟩
    (Stops.cons _ (by decide)),
    .num (b := [' ']) (s := [' ']) (e := ['\n']) (x := ⟨false, [9, 6], some [5], none⟩) .weight
      (by unfold Blank; decide) ⟨by unfold Blank; decide, by simp⟩
      ⟨[], [], by simp [Blank], Or.inl rfl, rfl⟩
      ⟨⟨by decide, by decide, by simp, by simp⟩, rfl, by decide, by simp [digitsVal]⟩, ?_⟩
  intro pre i post he hi
  match pre, he with
  | [], he => simp at he; rw [← he.1] at hi; simp [Item.isProp] at hi
  | p :: pre, he => exact ⟨p, by simp, by simp at he; rw [← he.1]; rfl⟩

/-- Two materials. -/
example : diffuseOf "newmtl a\nKd 1 0.5 0 # red\nillum 2\nnewmtl b\n" =
    some [("b", false, 0, 0, 0), ("a", true, 1, 1 / 2, 0)] := by decide +kernel

end Verif.MtlScan
