import Verif.Proof.MgrLines
import Verif.Proof.Reach
import Verif.Sequence
/-
How much the volume of a book can grow in one call.
-/

namespace CppTrader
open Core

/-- What a step can add to the volume of the book and the order in flight. -/
def Lbl.grows : Lbl → Nat
  | .arrive o => o.leaves
  | .modify _ t => t.leaves
  | _ => 0

/-- The quantity in flight. -/
def inFlight : Option Order → Nat
  | some t => t.leaves
  | none => 0

theorem Step.vol {l s t s' t'} (st : Step l s t s' t') (h : CInv s t) :
    volume s'.book + inFlight t' ≤ volume s.book + inFlight t + l.grows := by
  obtain ⟨hi, hf⟩ := h
  cases st with
  | trade fill head side reach qty nf na =>
    rename_i t o q s1
    have e := (fill.eff hi).vol
    rw [execTaker_volume]; show _ + (t.leaves - q) ≤ _ + t.leaves + 0; omega
  | sweep fills sum pos sides tif =>
    rename_i t xs s1
    obtain ⟨e1, e2, e3⟩ := fills.inv hi
    rw [execTaker_volume]; show _ + (t.leaves - t.leaves) ≤ _ + t.leaves + 0; omega
  | pair fe fr side ne nae nar crossed =>
    have a := (fe.eff hi).vol
    have b := (fr.eff (fe.eff hi).inv).vol
    show _ + 0 ≤ _ + 0 + 0; omega
  | cross f1 f2 ne aon side =>
    have a := f1.inv hi
    have b := f2.inv a.1
    show _ + 0 ≤ _ + 0 + 0; omega
  | take mem sym run =>
    obtain ⟨k, a1, a2, a3, a4, a5, a6⟩ := hi.take mem sym run
    show _ + Order.leaves _ ≤ _ + 0 + 0; omega
  | put fresh pos nm tif run =>
    obtain ⟨k, a1, a2, a3, a4, a5, _⟩ := hi.put (hf _ rfl) fresh pos nm tif run
    show _ + 0 ≤ _ + Order.leaves _ + 0; omega
  | cancel => show _ + 0 ≤ _ + Order.leaves _ + 0; exact Nat.le_trans (Nat.le_refl _) (Nat.le_add_right _ _)
  | activate ty trig => rcases ty with ⟨_, rfl⟩ | ⟨_, rfl⟩ <;> exact Nat.le_refl _
  | bound ty lim => exact Nat.le_refl _
  | retrail ty ne =>
    show _ + Order.leaves _ ≤ _ + Order.leaves _ + 0
    rw [retrail_leaves]; exact Nat.le_refl _
  | mark => exact Nat.le_refl _
  | reset => exact Nat.le_refl _
  | arrive rep idp sym vol tr => exact Nat.le_refl _
  | reduce mem sym pos run =>
    obtain ⟨k, a1, a2, a3, a4, a5, _⟩ := hi.reduce mem sym run
    show _ + 0 ≤ _ + 0 + 0; omega
  | execute mem sym pos le run =>
    rename_i o p q s1
    obtain ⟨k, s2, a1, a2, a3, a4, a5, a6, _⟩ := hi.execute_ok mem sym p q le
    have run' : (s.reported o p q).shrink (o.filled q) q
        (o.hiddenQty - (o.filled q).hiddenQty) (o.visibleQty - (o.filled q).visibleQty) = .ok s1 := run
    rw [run'] at a2; cases a2
    show volume s1.book + 0 ≤ _ + 0 + 0; omega
  | modify rep pos vol => show _ + Order.leaves _ ≤ _ + Order.leaves _ + Order.leaves _; exact Nat.add_le_add_right (Nat.le_add_right _ _) _
  | vanish zero => show _ + 0 ≤ _ + Order.leaves _ + 0; exact Nat.le_trans (Nat.le_refl _) (Nat.le_add_right _ _)

theorem Steps.vol {A s t s' t'} (h : Steps A s t s' t') (hA : ∀ l, A l → l.grows = 0) (hi : CInv s t) :
    volume s'.book + inFlight t' ≤ volume s.book + inFlight t := by
  induction h with
  | refl => exact Nat.le_refl _
  | head a st _ ih =>
    have h1 := st.vol hi
    have h2 := ih (st.inv hi)
    have := hA _ a
    omega

theorem OpL.grows {m tag l} (h : OpL m tag l) (hn : l.noArrive) (ht : tag ≠ .modify) : l.grows = 0 := by
  cases l <;> first | rfl | exact absurd hn id | exact absurd (h.modify _ _ rfl) ht

theorem OpEff.vol {m n tag s s' e} (h : OpEff m n tag s s' e) (hi : Inv s) (ht : tag ≠ .modify) {q : Nat}
    (hq : ∀ o, tag.arrives o → o.leaves ≤ q) : volume s'.book ≤ volume s.book + q := by
  have hg : ∀ l, OpL m tag l ∧ l.noArrive → l.grows = 0 := fun l h => h.1.grows h.2 ht
  have hc := CInv.none_iff.2 hi
  have ho := h.once
  cases ho with
  | no h0 => have := Steps.vol h0 hg hc; simp only [inFlight] at this; omega
  | one o h1 a st h2 _ =>
    have e1 := h1.vol hg hc
    have c1 := h1.inv hc
    have e2 := st.vol c1
    have e3 := h2.vol hg (st.inv c1)
    have := hq o (a.arrive o rfl)
    simp only [inFlight, Lbl.grows] at e1 e2 e3
    omega

theorem matchIf_vol {m : Bool} {s t s' t'} (hi : Inv s) (hf : Fly s t) (hpos : 0 < t.leaves) (h : s.matchIf m t = .ok (s', t')) :
    volume s'.book + t'.leaves ≤ volume s.book + t.leaves ∧ Inv s' ∧ Fly s' t' := by
  unfold matchIf at h
  cases m with
  | false => cases h; exact ⟨Nat.le_refl _, hi, hf⟩
  | true =>
    have hc : CInv s (some t) := ⟨hi, fun t' h => by cases h; exact hf⟩
    obtain ⟨s2, t2, e1, e2, e3⟩ := matchOrder_ok hi hf hpos
    simp only [if_true] at h
    rw [e1] at h; cases h
    have c := e2.inv hc
    refine ⟨?_, c.inv, c.fly _ rfl⟩
    have := e2.vol (fun l hl => by cases l <;> first | rfl | exact absurd hl id) hc
    exact this

theorem finish_vol {m : Bool} {s s' : Core} {e} (hi : Inv s) (h : s.finish m = .ok (s', e)) : volume s'.book ≤ volume s.book := by
  obtain ⟨s1, e1, _, e2, _⟩ := finish_ok hi m .delete
  rw [h] at e1; cases e1; exact e2

theorem modifyOp_vol {m : Bool} {s s' : Core} {o : Order} {p q : Nat} {mit : Bool} {e} (hi : Inv s) (mem : s.orders o.id = some o)
    (sym : o.symbolId = s.book.symbol.id) (hp : p < W64) (hq : q < W64) (hvol : volume s.book + q < W64)
    (h : s.modifyOp m o p q mit = .ok (s', e)) : volume s'.book ≤ volume s.book + q := by
  obtain ⟨k, s1, b1, a1, a2, a3, a4, a5, _⟩ := hi.unlink mem sym
  have hok := (hi.orders _ o mem).2
  have hle := modified_leaves_le o p q mit
  have hrep : (modified o p q mit).Repr64 := by
    have := hok.repr
    unfold Order.Repr64 at *
    refine ⟨this.1, this.2.1, hp, this.2.2.2.1, hq, this.2.2.2.2.2.1, by omega, this.2.2.2.2.2.2.2⟩
  unfold modifyOp at h
  rw [a1, Except.bind_ok] at h
  simp only at h
  by_cases hpos : (modified o p q mit).leaves > 0
  · rw [if_pos hpos] at h
    have hf : Fly (s1.emit (.updateOrder (modified o p q mit))) (modified o p q mit) :=
      ⟨hrep, hok.idPos, by show o.symbolId = s1.book.symbol.id; rw [a4.symbol]; exact sym,
        by show volume s1.book + _ < _; omega, hok.trail⟩
    obtain ⟨⟨s2, t2⟩, h1, h2⟩ := bind_inv h
    obtain ⟨v1, i1, f1⟩ := matchIf_vol (a2.emit _) hf hpos h1
    simp only at h2
    have v0 : volume (s1.emit (.updateOrder (modified o p q mit))).book = volume s1.book := rfl
    by_cases hl : t2.leaves > 0
    · rw [if_pos hl] at h2
      obtain ⟨s3, h3, h4⟩ := bind_inv h2
      obtain ⟨s2', t2', g1, g2, g3⟩ := matchIf_ok (m := m) (tag := .modify) (n := false) (s := s) (s1 := s1.emit (.updateOrder (modified o p q mit))) (t := modified o p q mit) hi (by
        obtain ⟨s1', x1, x2, _⟩ := take_steps (m := m) (tag := .modify) hi mem sym
        rw [a1] at x1; cases x1
        refine .no (x2.trans (.one (l := .modify o (modified o p q mit)) ⟨⟨⟨?_, ?_, ?_, ?_, ?_, ?_, ?_, fun _ => trivial⟩, trivial⟩, trivial⟩ (.modify hrep hpos (by omega))))
        · intro _ h; cases h
        · intro _; trivial
        · intro _ _ _ h; cases h
        · intro _ _ _; rfl
        · intro _ _ h; cases h
        · intro _ _ h; cases h
        · intro _ h; cases h) hpos (by simp)
      rw [h1] at g1; cases g1
      have hty : t2.type = o.type := by obtain ⟨⟨_, _, rfl⟩, _⟩ := g3; rfl
      have htf : t2.tif = o.tif := by obtain ⟨⟨_, _, rfl⟩, _⟩ := g3; rfl
      have hid : t2.id = o.id := by obtain ⟨⟨_, _, rfl⟩, _⟩ := g3; rfl
      have hnone : s2.orders t2.id = none := g3.2.none _ (by
        show s1.orders t2.id = none
        rw [a3.orders, hid]; simp)
      obtain ⟨k', c1, c2, c3, c4, c5, _⟩ := i1.put f1 hnone hl (by rw [hty]; exact hok.notMarket) (by rw [hty, htf]; exact hok.tif) h3
      have := finish_vol c2 h4
      omega
    · rw [if_neg hl] at h2
      have := finish_vol (i1.emit _) h2
      have v2 : volume (s2.emit (.deleteOrder t2)).book = volume s2.book := rfl
      omega
  · rw [if_neg hpos] at h
    have := finish_vol (a2.emit _) h
    have v2 : volume (s1.emit (.deleteOrder (modified o p q mit))).book = volume s1.book := rfl
    omega

/-- The volume of every book is at most `n`. -/
def Mgr.AtMost (g : Mgr) (n : Nat) : Prop := ∀ sym b, slot g.books sym = some b → volume b ≤ n

theorem Mgr.AtMost.put {g : Mgr} {n n' : Nat} (h : g.AtMost n) (hn : n ≤ n') {sym b} {s' : Core} (hb : slot g.books sym = some b)
    (hs : volume s'.book ≤ n') : (g.put sym s').AtMost n' := by
  intro sy b' hb'
  by_cases e : sy = sym
  · subst e; rw [put_getBook_same hb] at hb'; cases hb'; exact hs
  · rw [put_getBook_other e] at hb'; exact Nat.le_trans (h _ _ hb') hn

theorem BookOp.atMost {tag sym g g' e} (h : BookOp tag sym g g' e) (hi : MInv g) {n q} (hm : g.AtMost n) (ht : tag ≠ .modify)
    (hq : ∀ o, tag.arrives o → o.leaves ≤ q) : g'.AtMost (n + q) := by
  obtain ⟨b, s', h1, h2, rfl⟩ := h.ex
  have := h2.vol (hi.inv h1).1 ht hq
  have h3 := hm _ _ h1
  exact hm.put (by omega) h1 (by have : volume (g.core b).book = volume b := rfl; omega)

theorem Acts.atMost {A : Nat → Lbl → Prop} {g g'} (h : Acts A g g') (hA : ∀ i l, A i l → l.grows = 0) {n} (hi : MInv g) (hm : g.AtMost n) :
    g'.AtMost n := by
  induction h with
  | refl => exact hm
  | book hb st _ ih =>
    refine ih (hi.put hb st) (hm.put (Nat.le_refl _) hb ?_)
    have h1 := st.vol (hA _) (CInv.none_iff.2 (hi.inv hb).1)
    have h2 := hm _ _ hb
    exact Nat.le_trans h1 h2

theorem submitted_leaves {o t : Order} {m : Nat} (h : o.Submitted m t) : t.leaves = o.leaves := by
  rcases h with ⟨rfl, _⟩ | ⟨_, ⟨_, rfl⟩ | ⟨_, rfl⟩⟩ <;> rfl

/-- One call adds at most the quantity it brings in to the volume of any book. -/
theorem step_atMost_inv {g : Mgr} (hi : MInv g) {op : Op} {g' e} (ha : g.Admissible op) (hs : g.step op = .ok (g', e)) {n : Nat}
    (hm : g.AtMost n) : g'.AtMost (n + op.quantity) := by
  have hmono : g.AtMost (n + op.quantity) := fun s b h => Nat.le_trans (hm s b h) (Nat.le_add_right _ _)
  have hmod : ∀ {id p q mit}, g.modifyOrder id p q mit = .ok (g', e) → p < W64 → q < W64 →
      (∀ o, g.getOrder id = some o → g.Fits o.symbolId q) → g'.AtMost (n + q) := by
    intro id p q mit hs hp hq hf
    have hmono : g.AtMost (n + q) := fun s b h => Nat.le_trans (hm s b h) (Nat.le_add_right _ _)
    unfold Mgr.modifyOrder at hs
    by_cases h0 : id = 0
    · rw [if_pos h0] at hs; cases hs; exact hmono
    by_cases h1 : q = 0
    · rw [if_neg h0, if_pos h1] at hs; cases hs; exact hmono
    rw [if_neg h0, if_neg h1] at hs
    unfold Mgr.onOrder at hs
    cases ho : g.orders id with
    | none => rw [ho] at hs; cases hs; exact hmono
    | some o =>
      rw [ho] at hs
      simp only at hs
      unfold Mgr.onBook at hs
      cases hb : slot g.books o.symbolId with
      | none => rw [hb] at hs; cases hs; exact hmono
      | some b =>
        rw [hb] at hs
        simp only at hs
        obtain ⟨⟨c, e'⟩, h3, h4⟩ := bind_inv hs
        cases h4
        obtain ⟨hI, hsym⟩ := hi.inv hb
        have hid := (hi.orders id o ho).1
        have hgo : g.getOrder id = some o := by rw [hi.getOrder]; exact ho
        have h5 := modifyOp_vol hI (by show g.orders o.id = _; rw [hid]; exact ho) hsym.symm hp hq (hf o hgo b hb) h3
        exact hm.put (by omega) hb (Nat.le_trans h5 (Nat.add_le_add_right (hm _ _ hb) _))
  have heff := step_eff hi ha hs
  cases heff with
  | refused h => rw [h.1]; exact hmono
  | addSymbol => exact hmono
  | deleteSymbol => exact hmono
  | addBook h1 h2 h3 =>
    intro sy b hb
    have hb : slot _ sy = some b := hb
    rw [h3 sy] at hb
    split at hb
    · cases hb
      show volume (Book.new _) ≤ _
      unfold Core.volume Core.kindVolume Book.new
      exact Nat.zero_le _
    · exact hm _ _ hb
  | deleteBook h1 h2 =>
    intro sy b hb
    have hb : slot _ sy = some b := hb
    rw [h2 sy] at hb
    split at hb
    · cases hb
    · exact hm _ _ hb
  | book on h =>
    cases op
    case modifyOrder id p q => exact hmod hs ha.1 ha.2.1 ha.2.2
    case mitigateOrder id p q => exact hmod hs ha.1 ha.2.1 ha.2.2
    case addOrder o =>
      obtain ⟨rfl, rfl⟩ := on
      exact h.atMost hi hm (by simp) (fun t ht => Nat.le_of_eq (submitted_leaves ht))
    case replaceOrder id k p q =>
      obtain ⟨o, rfl, _⟩ := on
      exact h.atMost hi hm (by simp) (fun t ht => by cases ht; exact Nat.le_refl _)
    case reduceOrder => obtain ⟨rfl, _⟩ := on; exact h.atMost hi hm (by simp) (fun t ht => absurd ht id)
    case deleteOrder => obtain ⟨rfl, _⟩ := on; exact h.atMost hi hm (by simp) (fun t ht => absurd ht id)
    case executeOrder => obtain ⟨rfl, _⟩ := on; exact h.atMost hi hm (by simp) (fun t ht => absurd ht id)
    case executeOrderAt => obtain ⟨rfl, _⟩ := on; exact h.atMost hi hm (by simp) (fun t ht => absurd ht id)
    all_goals exact absurd on id
  | replaceWith ho h1 h2 =>
    have hm1 := h1.atMost hi hm (q := 0) (by simp) (fun t ht => absurd ht id)
    rcases h2 with h2 | h2
    · rw [h2.1]
      exact fun s b h => Nat.le_trans (hm1 s b h) (Nat.le_add_right _ _)
    · exact h2.atMost (h1.minv hi) hm1 (by simp) (fun t ht => Nat.le_of_eq (submitted_leaves ht))
  | enable acts all hm' => exact acts.atMost (fun _ l hl => by cases l <;> first | rfl | exact absurd hl id) (g := { g with matching := true }) ⟨hi.1, hi.2, hi.3⟩ hm
  | disable => exact hmono
  | all acts all hm' => exact acts.atMost (fun _ l hl => by cases l <;> first | rfl | exact absurd hl id) hi hm

theorem step_atMost {g : Mgr} (hr : g.Reachable) {op : Op} {g' e} (ha : g.Admissible op) (hs : g.step op = .ok (g', e)) {n : Nat}
    (hm : g.AtMost n) : g'.AtMost (n + op.quantity) := step_atMost_inv hr.minv ha hs hm

/-- Every order has a book, except those of the symbols in `D`. -/
def Mgr.Housed (g : Mgr) (D : List Nat) : Prop := ∀ i o, g.orders i = some o → slot g.books o.symbolId ≠ none ∨ o.symbolId ∈ D

theorem Mgr.Housed.put {g : Mgr} {D} (h : g.Housed D) (hi : MInv g) {A sym b} {s' : Core} (hb : slot g.books sym = some b)
    (st : Steps A (g.core b) none s' none) : (g.put sym s').Housed D := by
  intro i o ho
  have hiso := (st.iso (CInv.none_iff.2 (hi.inv hb).1)).1
  have hsym : (g.core b).book.symbol.id = sym := (hi.inv hb).2
  rw [hsym] at hiso
  by_cases e : o.symbolId = sym
  · left; rw [e, put_getBook_same hb]; simp
  · rw [put_getBook_other e]; exact h i o (hiso.back i o ho e)

theorem BookOp.housed {tag sym g g' e} (h : BookOp tag sym g g' e) (hi : MInv g) {D} (hm : g.Housed D) : g'.Housed D := by
  obtain ⟨b, s', h1, h2, rfl⟩ := h.ex
  exact hm.put hi h1 h2.steps

theorem Acts.housed {A : Nat → Lbl → Prop} {g g'} (h : Acts A g g') {D} (hi : MInv g) (hm : g.Housed D) : g'.Housed D := by
  induction h with
  | refl => exact hm
  | book hb st _ ih => exact ih (hi.put hb st) (hm.put hi hb st)

/-- The book a call removes. -/
def Op.removes : Op → List Nat
  | .deleteOrderBook id => [id]
  | _ => []

theorem step_housed {g : Mgr} (hr : g.Reachable) {op : Op} {g' e} (ha : g.Admissible op) (hs : g.step op = .ok (g', e)) {D : List Nat}
    (hm : g.Housed D) : g'.Housed (op.removes ++ D) := by
  have hi := hr.minv
  have hmono : ∀ {g : Mgr}, g.Housed D → g.Housed (op.removes ++ D) := fun hm i o ho =>
    (hm i o ho).imp id fun h => List.mem_append_right _ h
  have heff := hr.eff ha hs
  cases heff with
  | refused h => rw [h.1]; exact hmono hm
  | addSymbol => exact hmono hm
  | deleteSymbol => exact hmono hm
  | addBook h1 h2 h3 =>
    refine hmono fun i o ho => ?_
    show slot _ o.symbolId ≠ none ∨ _
    rw [h3 o.symbolId]
    split
    · left; simp
    · exact hm i o ho
  | deleteBook h1 h2 =>
    intro i o ho
    show slot _ o.symbolId ≠ none ∨ _
    rw [h2 o.symbolId]
    split
    · right; simp [Op.removes, *]
    · exact hmono hm i o ho
  | book on h => exact hmono (h.housed hi hm)
  | replaceWith ho h1 h2 =>
    have hm1 := h1.housed hi hm
    rcases h2 with h2 | h2
    · rw [h2.1]; exact hmono hm1
    · exact hmono (h2.housed (h1.minv hi) hm1)
  | enable acts all hm' => exact hmono (acts.housed (g := { g with matching := true }) ⟨hi.1, hi.2, hi.3⟩ hm)
  | disable => exact hmono hm
  | all acts all hm' => exact hmono (acts.housed hi hm)

end CppTrader
