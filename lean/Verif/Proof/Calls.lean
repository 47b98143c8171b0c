import Verif.Proof.StepEv
import Verif.Proof.Reach
import Verif.Trades
/-
Events of sequences of steps and of public calls.
-/

namespace CppTrader
open Core

/-- What a label says about its executions. -/
def Lbl.good (l : Lbl) : Prop :=
  match l with
  | .trade _ o _ => Deal l.execs ∧ o.type = .limit
  | .sweep _ xs => Deal l.execs ∧ ∀ x ∈ xs, x.1.type = .limit
  | .pair e r => Deal l.execs ∧ e.type = .limit ∧ r.type = .limit
  | .cross _ _ _ => Cross l.execs
  | .execute _ _ _ => Manual l.execs
  | _ => True

theorem FillPre.resting {s o q} (h : FillPre s o q) (hi : Inv s) : RestingFill o q :=
  ⟨h.lim, (hi.orders _ _ h.mem).2.tif h.lim, h.pos, h.le, h.aon⟩

theorem Fills.resting {p s xs s'} (h : Fills p s xs s') (hi : Inv s) : ∀ x ∈ xs, RestingFill x.1 x.2 := by
  induction h with
  | nil => simp
  | cons f _ ih =>
    intro x hx
    rcases List.mem_cons.1 hx with rfl | hx
    · exact f.pre.resting hi
    · exact ih (f.eff hi).inv x hx

theorem accepts_of_reaches {t o : Order} (h : Core.reaches t o.price = true) : t.accepts o.price := by
  unfold Core.reaches at h; unfold Order.accepts
  unfold Order.isBuy at h
  cases hs : t.side <;> simp_all

theorem accepts_resting {t o : Order} (hs : o.side ≠ t.side) (h : Core.reaches t o.price = true) : o.accepts t.price := by
  unfold Core.reaches at h; unfold Order.accepts
  unfold Order.isBuy at h
  cases hs' : t.side <;> cases hs2 : o.side <;> simp_all

theorem Step.good {l s t s' t'} (st : Step l s t s' t') (hc : CInv s t) : l.good := by
  have hi := hc.inv
  cases st with
  | trade fill head side reach qty nf na =>
    exact ⟨.hit _ _ _ side (fill.pre.resting hi) qty (accepts_of_reaches reach) ⟨nf, na⟩, fill.pre.lim⟩
  | sweep fills sum pos sides tif =>
    exact ⟨.whole _ _ (fun x hx => ⟨(sides x hx).1, fills.resting hi x hx, accepts_resting (sides x hx).1 (sides x hx).2⟩) sum pos tif,
      fun x hx => (fills.resting hi x hx).limit⟩
  | pair fe fr side ne nae nar crossed =>
    rename_i e r s1
    refine ⟨.pair _ _ side (fe.pre.resting hi) (fr.pre.resting (fe.eff hi).inv) ⟨nae, nar⟩ ?_, fe.pre.lim, fr.pre.lim⟩
    unfold Order.accepts
    cases hr : r.side with
    | buy => exact crossed r e (.inr ⟨rfl, rfl⟩) hr
    | sell =>
      have he : e.side = .buy := by cases h : e.side <;> simp_all
      exact crossed e r (.inl ⟨rfl, rfl⟩) he
  | cross f1 f2 ne aon side =>
    obtain ⟨sd, h1, h2⟩ := side
    exact .mk _ _ _ ne sd (fun x hx => ⟨h1 x hx, f1.resting hi x hx⟩) (fun x hx => ⟨h2 x hx, f2.resting (f1.inv hi).1 x hx⟩)
  | execute mem sym pos le run => exact .mk _ _ _ pos le
  | _ => trivial

/-- The executions are about orders of one symbol. -/
def Lbl.onSym (l : Lbl) (sym : Nat) : Prop := ∀ x ∈ l.execs, x.1.symbolId = sym

theorem execsOf_sym {evs : List Event} {sym} (h : ∀ e ∈ evs, e.symbol = sym) : ∀ x ∈ execsOf evs, x.1.symbolId = sym := by
  induction evs with
  | nil => simp [execsOf]
  | cons e es ih =>
    have h1 := h e (by simp)
    have ih := ih (fun e he => h e (by simp [he]))
    cases e <;> simp only [execsOf]
    case exec o p q =>
      intro x hx
      rcases List.mem_cons.1 hx with rfl | hx
      · exact h1
      · exact ih x hx
    all_goals exact ih

/-- Events of a sequence of steps. -/
structure StepsEv (A : Lbl → Prop) (s : Core) (t : Option Order) (s' : Core) (t' : Option Order) (evs : List Event)
    (ls : List Lbl) : Prop where
  ev : Ev s s' evs
  execs : execsOf evs = (ls.map Lbl.execs).flatten
  adds : addsOf evs = (ls.map Lbl.adds).flatten
  labels : ∀ l ∈ ls, A l ∧ l.good ∧ l.onSym s.book.symbol.id
  nil : ls = [] → evs = []
  orders : ∀ (sc : Scope) (v : OrderView), Over v s.orders t → (∀ l ∈ ls, l.noArrive ∧ l.inScope sc) →
    ∃ v', OrdEv sc v evs v' ∧ Over v' s'.orders t'

theorem StepsEv.refl (A s t) : StepsEv A s t s t [] [] :=
  ⟨.refl s, rfl, rfl, by simp, fun _ => rfl, fun _ v hv _ => ⟨v, rfl, hv⟩⟩

theorem StepsEv.trans {A s t s1 t1 s2 t2 e1 e2 l1 l2} (h : StepsEv A s t s1 t1 e1 l1) (h' : StepsEv A s1 t1 s2 t2 e2 l2) :
    StepsEv A s t s2 t2 (e1 ++ e2) (l1 ++ l2) := by
  refine ⟨h.ev.trans h'.ev, by rw [execsOf_append, h.execs, h'.execs]; simp, by rw [addsOf_append, h.adds, h'.adds]; simp, ?_, ?_, ?_⟩
  · intro l hl
    rcases List.mem_append.1 hl with hl | hl
    · exact h.labels l hl
    · rw [← h.ev.bsym]; exact h'.labels l hl
  · intro e
    obtain ⟨a, b⟩ := List.append_eq_nil_iff.1 e
    rw [h.nil a, h'.nil b]; rfl
  · intro sc v hv hn
    obtain ⟨v1, a, b⟩ := h.orders sc v hv (fun l hl => hn l (by simp [hl]))
    obtain ⟨v2, c, d⟩ := h'.orders sc v1 b (fun l hl => hn l (by simp [hl]))
    exact ⟨v2, a.append c, d⟩

theorem Step.stepsEv {A : Lbl → Prop} {l s t s' t'} (st : Step l s t s' t') (a : A l) (hc : CInv s t) :
    ∃ evs, StepsEv A s t s' t' evs [l] := by
  obtain ⟨evs, h⟩ := st.events hc
  refine ⟨evs, h.ev, by simp [h.execs], by simp [h.adds], ?_, by simp, ?_⟩
  · intro l' hl; simp at hl; subst hl; exact ⟨a, st.good hc, by unfold Lbl.onSym; rw [← h.execs]; exact execsOf_sym h.ev.sym⟩
  · intro sc v hv hn
    refine h.orders sc v (hn l (by simp)).2 hv ?_
    intro o e
    have := (hn l (by simp)).1
    rw [e] at this; cases this

theorem Steps.stepsEv {A s t s' t'} (h : Steps A s t s' t') (hc : CInv s t) : ∃ evs ls, StepsEv A s t s' t' evs ls := by
  induction h with
  | refl => exact ⟨_, _, .refl ..⟩
  | head a st _ ih =>
    obtain ⟨e1, h1⟩ := st.stepsEv a hc
    obtain ⟨e2, l2, h2⟩ := ih (st.inv hc)
    exact ⟨_, _, h1.trans h2⟩

theorem noArrive_adds {l : Lbl} (h : l.noArrive) : l.adds = [] := by cases l <;> first | rfl | cases h

theorem noArrive_flat {ls : List Lbl} (h : ∀ l ∈ ls, l.noArrive) : (ls.map Lbl.adds).flatten = [] := by
  induction ls with
  | nil => rfl
  | cons l ls ih =>
    simp only [List.map_cons, List.flatten_cons, noArrive_adds (h l (by simp)), ih fun l hl => h l (by simp [hl]), List.append_nil]

/-- With at most one arrival, under an unused id: the order feed is consistent. -/
theorem Once.orders {F} {A : Lbl → Prop} {s s'} {n : Bool} (h : Once F A s none s' none n) (hi : Inv s) (hF : F) {sc : Scope} (hA : ∀ l, A l → l.inScope sc) :
    ∃ evs, s'.ev = s.ev ++ evs ∧ OrdEv sc s.orders evs s'.orders ∧
      (addsOf evs = [] ∧ n = false ∨ (∃ o, addsOf evs = [o] ∧ A (.arrive o)) ∧ n = true) := by
  have hc := CInv.none_iff.2 hi
  cases h with
  | no h =>
    obtain ⟨evs, ls, h1⟩ := h.stepsEv hc
    obtain ⟨v', a, b⟩ := h1.orders sc s.orders rfl (fun l hl => ⟨(h1.labels l hl).1.2, hA l (h1.labels l hl).1.1⟩)
    rw [show v' = s'.orders from b] at a
    exact ⟨evs, h1.ev.ev, a, .inl ⟨by rw [h1.adds]; exact noArrive_flat fun l hl => (h1.labels l hl).1.2, rfl⟩⟩
  | one o h a st h' fr =>
    obtain ⟨e1, l1, h1⟩ := h.stepsEv hc
    have hc1 := h.inv hc
    obtain ⟨e2, h2⟩ := st.events hc1
    obtain ⟨e3, l3, h3⟩ := h'.stepsEv (st.inv hc1)
    obtain ⟨v1, a1, b1⟩ := h1.orders sc s.orders rfl (fun l hl => ⟨(h1.labels l hl).1.2, hA l (h1.labels l hl).1.1⟩)
    obtain ⟨v2, a2, b2⟩ := h2.orders sc v1 trivial b1 (fun o' e => by cases e; exact fr hF)
    obtain ⟨v3, a3, b3⟩ := h3.orders sc v2 b2 (fun l hl => ⟨(h3.labels l hl).1.2, hA l (h3.labels l hl).1.1⟩)
    rw [show v3 = s'.orders from b3] at a3
    refine ⟨_, ((h1.ev.trans h2.ev).trans h3.ev).ev, (a1.append a2).append a3, .inr ⟨⟨o, ?_, a⟩, rfl⟩⟩
    rw [addsOf_append, addsOf_append, h1.adds, h2.adds, h3.adds, noArrive_flat fun l hl => (h1.labels l hl).1.2,
      noArrive_flat fun l hl => (h3.labels l hl).1.2]
    rfl

/-! ### Public calls -/

theorem levels_put {g : Mgr} {sym b c} (hb : slot g.books sym = some b) :
    (g.put sym c).levels = g.levels.set sym c.book.view := by
  funext i
  unfold Mgr.levels LevelView.set Mgr.getBook
  by_cases e : i = sym
  · subst e; rw [put_getBook_same hb]; simp
  · rw [put_getBook_other e]; simp [e]

/-- Events of a call that only works on books. -/
structure ActsEv (A : Nat → Lbl → Prop) (g g' : Mgr) (evs : List Event) (ls : List Lbl) : Prop where
  ev : g'.ev = g.ev ++ evs
  execs : execsOf evs = (ls.map Lbl.execs).flatten
  adds : addsOf evs = (ls.map Lbl.adds).flatten
  labels : ∀ l ∈ ls, ∃ sym, A sym l ∧ l.good ∧ l.onSym sym
  sym : ∀ e ∈ evs, ∃ l, A e.symbol l
  levels : Replays LevelView.ok LevelView.next g.levels evs g'.levels
  orders : ∀ sc : Scope, (∀ l ∈ ls, l.noArrive ∧ l.inScope sc) → OrdEv sc g.orders evs g'.orders
  bfeed : BookFeed evs

theorem ActsEv.refl (A g) : ActsEv A g g [] [] := ⟨by simp, rfl, rfl, by simp, by simp, rfl, fun _ _ => rfl, .nil⟩

theorem ActsEv.trans {A g g1 g2 e1 e2 l1 l2} (h : ActsEv A g g1 e1 l1) (h' : ActsEv A g1 g2 e2 l2) :
    ActsEv A g g2 (e1 ++ e2) (l1 ++ l2) := by
  refine ⟨by rw [h'.ev, h.ev, List.append_assoc], by rw [execsOf_append, h.execs, h'.execs]; simp, by rw [addsOf_append, h.adds, h'.adds]; simp,
    ?_, ?_, h.levels.append h'.levels,
    fun sc hn => (h.orders sc fun l hl => hn l (by simp [hl])).append (h'.orders sc fun l hl => hn l (by simp [hl])), h.bfeed.append h'.bfeed⟩
  · intro l hl
    rcases List.mem_append.1 hl with hl | hl
    · exact h.labels l hl
    · exact h'.labels l hl
  · intro e he
    rcases List.mem_append.1 he with he | he
    · exact h.sym e he
    · exact h'.sym e he

theorem ActsEv.mono {A B : Nat → Lbl → Prop} {g g' evs ls} (h : ActsEv A g g' evs ls) (hab : ∀ n l, A n l → B n l) :
    ActsEv B g g' evs ls :=
  ⟨h.ev, h.execs, h.adds, fun l hl => by obtain ⟨n, a, b⟩ := h.labels l hl; exact ⟨n, hab _ _ a, b⟩,
    fun e he => by obtain ⟨l, a⟩ := h.sym e he; exact ⟨l, hab _ _ a⟩, h.levels, h.orders, h.bfeed⟩

theorem StepsEv.acts {A : Nat → Lbl → Prop} {g : Mgr} {sym b s' evs ls} (hi : MInv g) (hb : slot g.books sym = some b)
    (h : StepsEv (A sym) (g.core b) none s' none evs ls) : ActsEv A g (g.put sym s') evs ls := by
  obtain ⟨_, hid⟩ := hi.inv hb
  refine ⟨h.ev.ev, h.execs, h.adds, fun l hl => ⟨sym, by have := h.labels l hl; rw [show (g.core b).book.symbol.id = sym from hid] at this; exact this⟩, ?_, ?_, ?_, h.ev.feed⟩
  · intro e he
    have h1 := h.ev.sym e he
    rw [show (g.core b).book.symbol.id = sym from hid] at h1
    rw [h1]
    cases ls with
    | nil => rw [h.nil rfl] at he; cases he
    | cons l ls => exact ⟨l, (h.labels l (by simp)).1⟩
  · have h1 := h.ev.lv g.levels (by
      show g.levels b.symbol.id = b.view
      rw [hid]; unfold Mgr.levels Mgr.getBook; rw [hb])
    rw [levels_put hb, ← hid]; exact h1
  · intro sc hn
    obtain ⟨v', a, c⟩ := h.orders sc g.orders rfl hn
    rw [show v' = s'.orders from c] at a
    exact a

theorem Acts.events {A g g'} (h : Acts A g g') (hi : MInv g) : ∃ evs ls, ActsEv A g g' evs ls := by
  induction h with
  | refl => exact ⟨_, _, .refl ..⟩
  | book hb hs _ ih =>
    obtain ⟨e1, l1, h1⟩ := hs.stepsEv (CInv.none_iff.2 (hi.inv hb).1)
    obtain ⟨e2, l2, h2⟩ := ih (hi.put hb hs)
    exact ⟨_, _, (h1.acts hi hb).trans h2⟩

/-! ### All-Or-None -/

/-- No All-Or-None order of the book's symbol is stored or in flight. -/
def NoA (s : Core) (t : Option Order) : Prop :=
  (∀ i o, s.orders i = some o → o.symbolId = s.book.symbol.id → o.tif ≠ .aon) ∧ ∀ t', t = some t' → t'.tif ≠ .aon

def Lbl.notCross : Lbl → Prop
  | .cross _ _ _ => False
  | _ => True

theorem NoA.setO {m : Nat → Option Order} {sym id : Nat} {v : Option Order}
    (h : ∀ i o, m i = some o → o.symbolId = sym → o.tif ≠ .aon) (hv : ∀ o, v = some o → o.tif ≠ .aon) :
    ∀ i o, CppTrader.setO m id v i = some o → o.symbolId = sym → o.tif ≠ .aon := by
  intro i o ho hs
  by_cases e : i = id
  · subst e; simp at ho; exact hv o ho
  · rw [setO_other _ _ e] at ho; exact h i o ho hs

theorem Fill.noA {s o p q s'} (f : Fill s o p q s') (hi : Inv s)
    (h : ∀ i o, s.orders i = some o → o.symbolId = s.book.symbol.id → o.tif ≠ .aon) :
    ∀ i o, s'.orders i = some o → o.symbolId = s'.book.symbol.id → o.tif ≠ .aon := by
  have e := f.eff hi
  rw [e.orders, e.same.symbol]
  refine NoA.setO h ?_
  intro o' ho'
  rw [afterFill_some ho']
  exact h o.id o f.pre.mem f.pre.sym

theorem Fills.noA {p s xs s'} (f : Fills p s xs s') (hi : Inv s)
    (h : ∀ i o, s.orders i = some o → o.symbolId = s.book.symbol.id → o.tif ≠ .aon) :
    ∀ i o, s'.orders i = some o → o.symbolId = s'.book.symbol.id → o.tif ≠ .aon := by
  induction f with
  | nil => exact h
  | cons f _ ih => exact ih (f.eff hi).inv (f.noA hi h)

theorem Step.noA {l s t s' t'} (st : Step l s t s' t') (hc : CInv s t) (h : NoA s t) (ha : ∀ o, l = .arrive o → o.tif ≠ .aon) :
    l.notCross ∧ NoA s' t' := by
  obtain ⟨hi, hf⟩ := hc
  obtain ⟨h1, h2⟩ := h
  cases st with
  | trade fill head side reach qty nf na =>
    rename_i t o q s1
    refine ⟨trivial, ?_, ?_⟩
    · have := fill.noA hi h1
      intro i o ho hs
      exact this i o ho (by rw [execTaker_symbol] at hs; exact hs)
    · intro t' e; cases e; exact h2 t rfl
  | sweep fills sum pos sides tif =>
    rename_i t xs s1
    refine ⟨trivial, ?_, ?_⟩
    · have := fills.noA hi h1
      intro i o ho hs
      exact this i o ho (by rw [execTaker_symbol] at hs; exact hs)
    · intro t' e; cases e; exact h2 t rfl
  | pair fe fr side ne nae nar crossed =>
    exact ⟨trivial, fr.noA (fe.eff hi).inv (fe.noA hi h1), by simp⟩
  | cross f1 f2 ne aon side =>
    obtain ⟨i, o, a, b, c, d⟩ := aon
    exact absurd (by simpa [Order.isAON] using d) (h1 i o a b)
  | take mem sym run =>
    obtain ⟨k, a1, a2, a3, a4, a5, a6⟩ := hi.take mem sym run
    refine ⟨trivial, ?_, ?_⟩
    · rw [a3.orders, a4.symbol]; exact NoA.setO h1 (by simp)
    · intro t' e; cases e; exact h1 _ _ mem sym
  | put fresh pos nm tif run =>
    obtain ⟨k, a1, a2, a3, a4, _⟩ := hi.put (hf _ rfl) fresh pos nm tif run
    refine ⟨trivial, ?_, by simp⟩
    rw [a3.orders, a4.symbol]
    exact NoA.setO h1 (fun o e => h2 o e)
  | cancel => exact ⟨trivial, h1, by simp⟩
  | activate ty trig =>
    refine ⟨trivial, h1, ?_⟩
    intro t' e; cases e
    have := h2 _ rfl
    rcases ty with ⟨_, rfl⟩ | ⟨_, rfl⟩
    · intro h; unfold toMarket at h; simp only at h; split at h <;> cases h
    · exact this
  | bound ty lim =>
    rename_i t p
    refine ⟨trivial, h1, ?_⟩
    intro t' e; cases e; exact h2 t rfl
  | retrail ty ne =>
    refine ⟨trivial, h1, ?_⟩
    intro t' e; cases e; rw [retrail_tif]; exact h2 _ rfl
  | mark => exact ⟨trivial, h1, h2⟩
  | reset => exact ⟨trivial, h1, h2⟩
  | arrive rep idp sym vol tr => exact ⟨trivial, h1, by intro t' e; cases e; exact ha _ rfl⟩
  | reduce mem sym pos run =>
    obtain ⟨k, a1, a2, a3, a4, _⟩ := hi.reduce mem sym run
    rename_i o q s1
    refine ⟨trivial, ?_, by simp⟩
    rw [a3.orders, a4.symbol]
    refine NoA.setO h1 ?_
    intro o' e
    split at e
    · cases e
    · cases e; exact h1 o.id o mem sym
  | execute mem sym pos le run =>
    rename_i o p q s1
    obtain ⟨k, s2, a1, a2, a3, a4, a5, _⟩ := hi.execute_ok mem sym p q le
    have run' : (s.reported o p q).shrink (o.filled q) q
        (o.hiddenQty - (o.filled q).hiddenQty) (o.visibleQty - (o.filled q).visibleQty) = .ok s1 := run
    rw [run'] at a2; cases a2
    refine ⟨trivial, ?_, by simp⟩
    show ∀ i o, s1.orders i = some o → o.symbolId = s1.book.symbol.id → _
    rw [a4.orders, show s1.book.symbol = s.book.symbol from a5.symbol.trans (updatePrices_symbol ..)]
    exact NoA.setO (m := s.orders) h1 (fun o' e => by rw [afterFill_some e]; exact h1 o.id o mem sym)
  | modify rep pos vol =>
    rename_i o p q mit
    refine ⟨trivial, h1, ?_⟩
    intro t' e; cases e; exact h2 o rfl
  | vanish zero => exact ⟨trivial, h1, by simp⟩

theorem Steps.noA {A s t s' t'} (h : Steps A s t s' t') (hc : CInv s t) (hn : NoA s t) (ha : ∀ o, A (.arrive o) → o.tif ≠ .aon) :
    Steps (fun l => A l ∧ l.notCross) s t s' t' ∧ NoA s' t' := by
  induction h with
  | refl => exact ⟨.refl _ _, hn⟩
  | head a st _ ih =>
    obtain ⟨b1, b2⟩ := st.noA hc hn (fun o e => ha o (by rw [← e]; exact a))
    obtain ⟨c1, c2⟩ := ih (st.inv hc) b2
    exact ⟨.head ⟨a, b1⟩ st c1, c2⟩

/-- No All-Or-None order of the symbol. -/
def Mgr.NoAON (g : Mgr) (sym : Nat) : Prop := ∀ i o, g.getOrder i = some o → o.symbolId = sym → o.tif ≠ .aon

/-- A call that submits no All-Or-None order for the symbol. -/
def Op.noAON (sym : Nat) : Op → Prop
  | .addOrder o => o.symbolId = sym → o.tif ≠ .aon
  | .replaceWith _ o => o.symbolId = sym → o.tif ≠ .aon
  | _ => True

theorem Acts.noA {A g g'} (h : Acts A g g') (hi : MInv g) {sym} (hn : g.NoAON sym) (ha : ∀ o, A sym (.arrive o) → o.tif ≠ .aon) :
    Acts (fun n l => A n l ∧ (n = sym → l.notCross)) g g' ∧ g'.NoAON sym := by
  induction h with
  | refl => exact ⟨.refl _, hn⟩
  | book hb hs tl ih =>
    rename_i g n b s' g'
    obtain ⟨h1, h2⟩ := hi.inv hb
    have hc := CInv.none_iff.2 h1
    have hi' := hi.put hb hs
    by_cases e : n = sym
    · subst e
      obtain ⟨c1, c2⟩ := hs.noA hc ⟨(fun i o ho hs => hn i o (by rw [hi.getOrder]; exact ho) (by rw [← h2]; exact hs)), by simp⟩ ha
      obtain ⟨d1, d2⟩ := ih hi' (by
        intro i o ho hs'
        rw [hi'.getOrder] at ho
        refine c2.1 i o ho ?_
        rw [(hs.iso hc).2]; rw [hs']; exact h2.symm)
      exact ⟨.book hb (c1.mono fun l h => ⟨h.1, fun _ => h.2⟩) d1, d2⟩
    · obtain ⟨d1, d2⟩ := ih hi' (by
        intro i o ho hs'
        rw [hi'.getOrder] at ho
        have := (hs.iso hc).1.back i o ho (by
          show o.symbolId ≠ b.symbol.id
          rw [h2, hs']; exact fun e' => e e'.symm)
        exact hn i o (by rw [hi.getOrder]; exact this) hs')
      exact ⟨.book hb (hs.mono fun l h => ⟨h, fun e' => absurd e' e⟩) d1, d2⟩

/-! ### Calls as sequences of steps -/

def Op.isRegistry : Op → Prop
  | .addSymbol _ => True
  | .deleteSymbol _ => True
  | .addOrderBook _ => True
  | .deleteOrderBook _ => True
  | _ => False


/-- Steps a call may consist of. -/
def Mgr.callL (g : Mgr) (op : Op) (n : Nat) (l : Lbl) : Prop :=
  (∃ tag, op.on g tag n ∧ OpL g.matching tag l) ∨
  (∃ id o old, op = .replaceWith id o ∧ g.orders id = some old ∧
    (n = old.symbolId ∧ OpL g.matching .delete l ∧ l.noArrive ∨ n = o.symbolId ∧ ∃ m, OpL g.matching (.add m o) l)) ∨
  (op = .enableMatching ∨ op = .matchAll) ∧ EngL l

/-- A registry call: one event, no order and no level affected. -/
inductive RegCall (g g' : Mgr) : Prop
  | mk (ev : Event) (h1 : g'.ev = g.ev ++ [ev]) (h2 : g'.orders = g.orders) (h3 : execsOf [ev] = [])
      (h4 : Replays LevelView.ok LevelView.next g.levels [ev] g'.levels)
      (h5 : ∀ sc, OrdEv sc g.orders [ev] g'.orders) (h5' : addsOf [ev] = []) (h6 : g'.matching = g.matching)

theorem BookOp.steps_delete {sym g g' e} (h : BookOp .delete sym g g' e) :
    ∃ b s', slot g.books sym = some b ∧ Steps (fun l => OpL g.matching .delete l ∧ l.noArrive) (g.core b) none s' none ∧ g' = g.put sym s' := by
  obtain ⟨b, s', h1, h2, h3⟩ := h.ex
  refine ⟨b, s', h1, ?_, h3⟩
  cases h2.once with
  | no h => exact h

/-- A call on a reachable state is a registry call or a sequence of steps. -/
theorem StepEff.acts {g op g' e} (h : StepEff g op g' e) (hi : MInv g) :
    (RegCall g g' ∧ op.isRegistry) ∨ ∃ g0 : Mgr, g0.ev = g.ev ∧ g0.orders = g.orders ∧ g0.books = g.books ∧ g0.symbols = g.symbols ∧
      Acts (g.callL op) g0 g' := by
  cases h with
  | refused h => exact .inr ⟨g, rfl, rfl, rfl, rfl, by rw [h.1]; exact .refl _⟩
  | addSymbol hn hv => exact .inl ⟨⟨_, rfl, rfl, rfl, ⟨trivial, rfl⟩, fun _ => ⟨trivial, rfl⟩, rfl, rfl⟩, trivial⟩
  | deleteSymbol hn hv => exact .inl ⟨⟨_, rfl, rfl, rfl, ⟨trivial, rfl⟩, fun _ => ⟨trivial, rfl⟩, rfl, rfl⟩, trivial⟩
  | addBook hr hn hv =>
    rename_i sym reg v
    refine .inl ⟨⟨_, rfl, rfl, rfl, ⟨trivial, ?_⟩, fun _ => ⟨trivial, rfl⟩, rfl, rfl⟩, trivial⟩
    funext i
    unfold Mgr.levels Mgr.getBook
    simp only [LevelView.next, hv i]
    by_cases e : i = sym.id
    · rw [if_pos e, e, hn]
      funext b p
      unfold Book.view Book.new
      cases b <;> rfl
    · rw [if_neg e]
  | deleteBook hn hv =>
    rename_i id b v
    refine .inl ⟨⟨_, rfl, rfl, rfl, ⟨trivial, ?_⟩, fun _ => ⟨trivial, rfl⟩, rfl, rfl⟩, trivial⟩
    funext i
    have := (hi.books _ _ hn).1
    unfold Mgr.levels Mgr.getBook
    simp only [LevelView.next, LevelView.set, hv i, this]
    by_cases e : i = id
    · rw [if_pos e, if_pos e]
    · rw [if_neg e, if_neg e]
  | book on h =>
    obtain ⟨b, s', h1, h2, rfl⟩ := h.ex
    exact .inr ⟨g, rfl, rfl, rfl, rfl, .book h1 (h2.steps.mono fun l hl => .inl ⟨_, on, hl⟩) (.refl _)⟩
  | replaceWith ho h1 h2 =>
    rename_i id o old g1
    refine .inr ⟨g, rfl, rfl, rfl, rfl, ?_⟩
    obtain ⟨b, s', k1, k2, rfl⟩ := h1.steps_delete
    refine .book k1 (k2.mono fun l hl => .inr (.inl ⟨id, o, old, rfl, ho, .inl ⟨rfl, hl.1, hl.2⟩⟩)) ?_
    rcases h2 with h2 | h2
    · rw [h2.1]; exact .refl _
    · exact h2.acts.mono fun n l hl => .inr (.inl ⟨id, o, old, rfl, ho, .inr ⟨hl.1, _, hl.2⟩⟩)
  | enable acts all hm =>
    exact .inr ⟨{ g with matching := true }, rfl, rfl, rfl, rfl, acts.mono fun n l h => .inr (.inr ⟨.inl rfl, h⟩)⟩
  | disable => exact .inr ⟨{ g with matching := false }, rfl, rfl, rfl, rfl, .refl _⟩
  | all acts all hm => exact .inr ⟨g, rfl, rfl, rfl, rfl, acts.mono fun n l h => .inr (.inr ⟨.inr rfl, h⟩)⟩

/-- Everything known about the executions, levels and events of a call. -/
structure CallEv (g : Mgr) (op : Op) (g' : Mgr) (evs : List Event) (ls : List Lbl) : Prop where
  ev : g'.ev = g.ev ++ evs
  execs : execsOf evs = (ls.map Lbl.execs).flatten
  adds : addsOf evs = (ls.map Lbl.adds).flatten
  labels : ∀ l ∈ ls, ∃ sym, g.callL op sym l ∧ l.good ∧ l.onSym sym
  levels : Replays LevelView.ok LevelView.next g.levels evs g'.levels

theorem MInv.congr {g g0 : Mgr} (h : MInv g) (h1 : g0.orders = g.orders) (h2 : g0.books = g.books) (h3 : g0.symbols = g.symbols) : MInv g0 :=
  ⟨by rw [h1]; exact h.orders, by rw [h1, h2]; exact h.books, by rw [h3]; exact h.symbols⟩

theorem StepEff.callEv {g op g' e} (h : StepEff g op g' e) (hi : MInv g) : ∃ evs ls, CallEv g op g' evs ls := by
  rcases h.acts hi with ⟨⟨ev, a, b, c, d, _, f, _⟩, _⟩ | ⟨g0, a, b, c, d, acts⟩
  · exact ⟨[ev], [], a, by rw [c]; rfl, by rw [f]; rfl, by simp, d⟩
  · obtain ⟨evs, ls, h⟩ := acts.events (hi.congr b c d)
    refine ⟨evs, ls, by rw [h.ev, a], h.execs, h.adds, h.labels, ?_⟩
    have := h.levels
    unfold Mgr.levels Mgr.getBook at this ⊢
    rw [c] at this
    exact this

theorem Order.Submitted.facts {m : Nat} {o o' : Order} (h : o.Submitted m o') : o'.tif = o.tif ∧ o'.id = o.id ∧ o'.leaves = o.leaves ∧
    o'.type = o.type ∧ o'.side = o.side ∧ o'.symbolId = o.symbolId ∧ o'.executed = o.executed ∧ o'.quantity = o.quantity := by
  rcases h with ⟨rfl, _⟩ | ⟨_, ⟨_, h⟩ | ⟨_, h⟩⟩
  · simp
  · rw [h]; simp
  · rw [h]; simp

theorem callL_arrive {g : Mgr} {op sym o} (h : g.callL op sym (.arrive o)) (hn : g.NoAON sym) (hi : MInv g) (ho : op.noAON sym) : o.tif ≠ .aon := by
  rcases h with ⟨tag, on, hl⟩ | ⟨id, o', old, rfl, h1, h2⟩ | ⟨_, h⟩
  · have ha : tag.arrives o := hl.arrive o rfl
    cases op <;> simp only [Op.on] at on
    case addOrder o' =>
      obtain ⟨rfl, rfl⟩ := on
      rw [ha.facts.1]; exact ho rfl
    case replaceOrder id n p q =>
      obtain ⟨o', rfl, h1, h2⟩ := on
      rw [show o = _ from ha]; exact hn id o' (by rw [hi.getOrder]; exact h1) h2
    all_goals (obtain ⟨rfl, _⟩ := on; cases ha)
  · rcases h2 with ⟨_, _, h⟩ | ⟨rfl, m, hl⟩
    · cases h
    · have ha : Order.Submitted m _ o := hl.arrive o rfl
      rw [ha.facts.1]; exact ho rfl
  · cases h

/-- If a symbol has no All-Or-None orders and the call submits none, no crossing chain is executed. -/
theorem StepEff.callEv_noAON {g op g' e} (h : StepEff g op g' e) (hi : MInv g) (ha : g.Admissible op) {sym} (hn : g.NoAON sym) (ho : op.noAON sym) :
    g'.NoAON sym ∧ ∃ evs ls, CallEv g op g' evs ls ∧
      ∀ l ∈ ls, ∃ n, g.callL op n l ∧ l.good ∧ l.onSym n ∧ (n = sym → l.notCross) := by
  have hm' := h.minv hi ha
  rcases h.acts hi with ⟨⟨ev, a, b, c, d, _, f, _⟩, _⟩ | ⟨g0, a, b, c, d, acts⟩
  · refine ⟨?_, [ev], [], ⟨a, by rw [c]; rfl, by rw [f]; rfl, by simp, d⟩, by simp⟩
    intro i o ho hs
    rw [hm'.getOrder, b] at ho
    exact hn i o (by rw [hi.getOrder]; exact ho) hs
  · have hi0 := hi.congr b c d
    obtain ⟨acts', hn'⟩ := acts.noA hi0 (sym := sym) (by
      intro i o ho hs
      rw [hi0.getOrder, b] at ho
      exact hn i o (by rw [hi.getOrder]; exact ho) hs) (fun o hl => callL_arrive hl hn hi ho)
    obtain ⟨evs, ls, h⟩ := acts'.events hi0
    refine ⟨hn', evs, ls, ⟨by rw [h.ev, a], h.execs, h.adds, fun l hl => ?_, ?_⟩, fun l hl => ?_⟩
    · obtain ⟨n, x, y⟩ := h.labels l hl
      exact ⟨n, x.1, y⟩
    · have := h.levels
      unfold Mgr.levels Mgr.getBook at this ⊢
      rw [c] at this
      exact this
    · obtain ⟨n, x, y, z⟩ := h.labels l hl
      exact ⟨n, x.1, y, z, x.2⟩

end CppTrader
