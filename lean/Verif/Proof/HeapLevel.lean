import Verif.Proof.HeapPrim
/-
Levels come and go, orders come and go.
-/

namespace CppTrader
namespace Ptr

variable {h h' : Heap} {M : Nat → Option Order} {lv : Col → List Level} {out : Option (Nat × Order)}

theorem insertAt_spec {k : Kind} {c p : Nat} : ∀ {as : List Nat} {ls : List Level},
    Trees (fun a l => ∃ n, h.lnode a = some n ∧ n.price = l.price) as ls →
    ∃ A1 A2 L1 L2, as = A1 ++ A2 ∧ ls = L1 ++ L2 ∧ A1.length = L1.length ∧ h.insertAt k c p as = .ok (A1 ++ c :: A2) ∧
      ∀ m : Level, m.price = p → insertLevel k m ls = L1 ++ m :: L2
  | [], [], _ => ⟨[], [], [], [], rfl, rfl, rfl, rfl, fun _ _ => rfl⟩
  | [], _ :: _, t => t.elim
  | _ :: _, [], t => t.elim
  | a :: as, l :: ls, t => by
    obtain ⟨n, hn, hp⟩ := t.1
    by_cases hb : k.better p l.price = true
    · refine ⟨[], a :: as, [], l :: ls, rfl, rfl, rfl, ?_, ?_⟩
      · unfold Heap.insertAt
        rw [level_eq hn, Except.bind_ok, hp, if_pos hb]; rfl
      · intro m hm
        unfold insertLevel
        rw [hm, if_pos hb]; rfl
    · obtain ⟨A1, A2, L1, L2, e1, e2, e3, e4, e5⟩ := insertAt_spec (c := c) (k := k) (p := p) t.2
      refine ⟨a :: A1, A2, l :: L1, L2, by rw [e1]; rfl, by rw [e2]; rfl, by simp [e3], ?_, ?_⟩
      · unfold Heap.insertAt
        rw [level_eq hn, Except.bind_ok, hp, if_neg hb, e4, Except.bind_ok]; rfl
      · intro m hm
        unfold insertLevel
        rw [hm, if_neg hb, e5 m hm]; rfl

theorem Trees.prices (r : Rep h M lv out) (x : Col) : Trees (fun a l => ∃ n, h.lnode a = some n ∧ n.price = l.price) (h.tree x) (lv x) :=
  (r.trees x).mono (fun _ _ _ _ hr => ⟨_, hr.1, rfl⟩)

theorem Rep.newL (r : Rep h M lv out) {a : Nat} {n : LNode} (ha : h.lnode a = some n) : a ≠ h.newL := by
  intro e
  have := h.poolL.sound h.madeL h.freshL (fun a => (h.lnode a).isSome) (by
    intro b hb
    cases hn : h.lnode b with
    | none => rw [hn] at hb; cases hb
    | some m => exact (r.lfull b m hn).1)
  have e2 : (h.lnode h.newL).isSome = false := this
  rw [← e, ha] at e2
  cases e2

theorem Rep.newO (r : Rep h M lv out) {a : Nat} {n : ONode} (ha : h.onode a = some n) : a ≠ h.newO := by
  intro e
  have := h.poolO.sound h.madeO h.freshO (fun a => (h.onode a).isSome) (by
    intro b hb
    cases hn : h.onode b with
    | none => rw [hn] at hb; cases hb
    | some m => exact (r.full b m hn).1)
  have e2 : (h.onode h.newO).isSome = false := this
  rw [← e, ha] at e2
  cases e2

theorem Rep.newLevel (r : Rep h M lv out) {x : Col} {p : Nat} {L1 L2 : List Level} {A1 A2 : List Nat} (hx : lv x = L1 ++ L2)
    (ht : h.tree x = A1 ++ A2) (t1 : Trees (LevelRep h x.2) A1 L1) (t2 : Trees (LevelRep h x.2) A2 L2) (hsp : Split x.2 L1 p L2)
    (hlo : h'.orders = h.orders) (hon : h'.onode = h.onode) (hfo : h'.freshO = h.freshO) (hfl : h'.freshL = max h.freshL (h.newL + 1))
    (hln : h'.lnode = setX h.lnode h.newL (some (LNode.new x.2.isBidType p)))
    (htr : h'.tree = setX h.tree x (A1 ++ h.newL :: A2)) (hbo : ∀ y, y ≠ x → h'.best y = h.best y)
    (hb : h'.best x = (A1 ++ h.newL :: A2).head?) : Rep h' M (setX lv x (L1 ++ Level.new p :: L2)) out := by
  have hnew : ∀ {a n}, h.lnode a = some n → a ≠ h.newL := by
    intro a n ha
    exact r.newL ha
  have hnt : ∀ y a, a ∈ h.tree y → a ≠ h.newL := by
    intro y a ha
    obtain ⟨B1, B2, e⟩ := split_of_mem ha
    obtain ⟨_, _, _, _, _, h2, _⟩ := (r.trees y).left e
    exact hnew h2.1
  have hfr : ∀ y a l, l ∈ lv y → LevelRep h y.2 a l → LevelRep h' y.2 a l := by
    intro y a l hl hr
    refine hr.frame (r.idsNodup y l hl) ?_ (fun _ _ => by rw [hlo]) (fun _ _ _ _ => by rw [hon])
    rw [hln, setX_other _ _ (hnew hr.1)]
  refine ⟨?_, ?_, ?_, ?_, ?_, ?_, ?_, ?_, ?_, ?_, ?_, ?_, ?_⟩
  · rw [hlo, hon]; exact r.back
  · rw [hlo]; exact r.fwd
  · rw [hlo, hon, hfo]; exact r.full
  · rw [hlo, hon]; exact r.outOk
  · intro y
    by_cases hy : y = x
    · subst hy
      rw [htr, setX_same, setX_same]
      refine Trees.append (t1.mono (fun a _ l hl hr => hfr y a l (by rw [hx]; exact List.mem_append_left _ hl) hr)) ⟨⟨?_, ?_⟩, t2.mono (fun a _ l hl hr => hfr y a l (by rw [hx]; exact List.mem_append_right _ hl) hr)⟩
      · rw [hln, setX_same]; rfl
      · intro i hi; cases hi
    · rw [htr, setX_other _ _ hy, setX_other _ _ hy]
      exact (r.trees y).mono (fun a _ l hl hr => hfr y a l hl hr)
  · intro a n ha
    rw [hln] at ha
    rw [hfl, htr]
    by_cases hae : a = h.newL
    · refine ⟨by omega, x, ?_⟩
      rw [setX_same, hae]; simp
    · rw [setX_other _ _ hae] at ha
      obtain ⟨q1, y, q2⟩ := r.lfull a n ha
      refine ⟨by omega, y, ?_⟩
      by_cases hy : y = x
      · subst hy
        rw [setX_same]
        rw [ht] at q2
        rcases List.mem_append.mp q2 with q | q
        · exact List.mem_append_left _ q
        · exact List.mem_append_right _ (List.mem_cons_of_mem _ q)
      · rw [setX_other _ _ hy]; exact q2
  · intro y
    by_cases hy : y = x
    · subst hy
      rw [htr, setX_same]
      have hnd := r.nodup y
      have hn1 := hnt y
      rw [ht] at hnd hn1
      rw [List.nodup_append] at hnd ⊢
      refine ⟨hnd.1, List.nodup_cons.mpr ⟨fun hm => hn1 h.newL (List.mem_append_right _ hm) rfl, hnd.2.1⟩, ?_⟩
      intro a ha b hb
      rcases List.mem_cons.mp hb with hb | hb
      · rw [hb]; exact hn1 a (List.mem_append_left _ ha)
      · exact hnd.2.2 a ha b hb
    · rw [htr, setX_other _ _ hy]; exact r.nodup y
  · have hin : ∀ y a, a ∈ h'.tree y → (a = h.newL ∧ y = x) ∨ a ∈ h.tree y := by
      intro y a ha
      rw [htr] at ha
      by_cases hy : y = x
      · subst hy
        rw [setX_same] at ha
        rw [ht]
        rcases List.mem_append.mp ha with q | q
        · exact .inr (List.mem_append_left _ q)
        · rcases List.mem_cons.mp q with q | q
          · exact .inl ⟨q, rfl⟩
          · exact .inr (List.mem_append_right _ q)
      · rw [setX_other _ _ hy] at ha; exact .inr ha
    intro y z a ha hb
    rcases hin y a ha with ⟨q1, q2⟩ | q
    · rcases hin z a hb with ⟨q3, q4⟩ | q'
      · rw [q2, q4]
      · exact absurd q1 (hnt z a q')
    · rcases hin z a hb with ⟨q3, q4⟩ | q'
      · exact absurd q3 (hnt y a q)
      · exact r.apart y z a q q'
  · intro y
    by_cases hy : y = x
    · subst hy; rw [hb, htr, setX_same]
    · rw [hbo y hy, htr, setX_other _ _ hy]; exact r.best y
  · intro y
    by_cases hy : y = x
    · subst hy; rw [setX_same]; exact sorted_insert (hx ▸ r.sorted y) hsp
    · rw [setX_other _ _ hy]; exact r.sorted y
  all_goals
    have hcase : ∀ y m, m ∈ setX lv x (L1 ++ Level.new p :: L2) y → (m = Level.new p) ∨ m ∈ lv y := by
      intro y m hm
      by_cases hy : y = x
      · subst hy
        rw [setX_same] at hm
        rw [hx]
        rcases List.mem_append.mp hm with q | q
        · exact .inr (List.mem_append_left _ q)
        · rcases List.mem_cons.mp q with q | q
          · exact .inl q
          · exact .inr (List.mem_append_right _ q)
      · rw [setX_other _ _ hy] at hm; exact .inr hm
  · intro y m hm
    rcases hcase y m hm with e | e
    · rw [e]; exact List.nodup_nil
    · exact r.idsNodup y m e
  · intro y m hm
    rcases hcase y m hm with e | e
    · rw [e]; rfl
    · exact r.count y m e
  · intro y m hm i hi
    rcases hcase y m hm with e | e
    · rw [e] at hi; cases hi
    · exact r.mem y m e i hi

theorem mid_inj {α : Type} {c : α} : ∀ {L1 X1 L2 Y1 : List α}, L1 ++ c :: L2 = X1 ++ c :: Y1 → c ∉ L1 → c ∉ X1 → L1 = X1 ∧ L2 = Y1
  | [], [], _, _, e, _, _ => ⟨rfl, (List.cons.inj e).2⟩
  | [], x :: X1, _, _, e, _, h => absurd (by rw [(List.cons.inj e).1]; exact List.mem_cons_self) h
  | y :: L1, [], _, _, e, h, _ => absurd (by rw [← (List.cons.inj e).1]; exact List.mem_cons_self) h
  | y :: L1, x :: X1, _, _, e, h, h' => by
    obtain ⟨q1, q2⟩ := List.cons.inj e
    obtain ⟨q3, q4⟩ := mid_inj q2 (fun hm => h (List.mem_cons_of_mem _ hm)) (fun hm => h' (List.mem_cons_of_mem _ hm))
    exact ⟨by rw [q1, q3], q4⟩

theorem addLevel_spec (r : Rep h M lv out) {x : Col} {p : Nat} (hnone : ∀ l ∈ lv x, l.price ≠ p) :
    ∃ h' L1 L2, h.addLevel x p = .ok (h', h.newL) ∧ lv x = L1 ++ L2 ∧ (∀ m : Level, m.price = p → insertLevel x.2 m (lv x) = L1 ++ m :: L2) ∧
      Rep h' M (setX lv x (L1 ++ Level.new p :: L2)) out ∧ h'.orders = h.orders ∧ h'.onode = h.onode ∧ LAt h' x h.newL p ∧
      ∀ y lb q, LAt h y lb q → LAt h' y lb q := by
  let h0 : Heap := { h with lnode := setX h.lnode h.newL (some (LNode.new x.2.isBidType p)), freshL := max h.freshL (h.newL + 1), madeL := h.madeL + 1 }
  have hnew : ∀ {a n}, h.lnode a = some n → a ≠ h.newL := by
    intro a n ha
    exact r.newL ha
  have tp : Trees (fun a l => ∃ n, h0.lnode a = some n ∧ n.price = l.price) (h.tree x) (lv x) := by
    refine (Trees.prices r x).mono ?_
    intro a _ l _ ⟨n, hn, hp⟩
    exact ⟨n, by show setX _ _ _ a = _; rw [setX_other _ _ (hnew hn)]; exact hn, hp⟩
  obtain ⟨A1, A2, L1, L2, e1, e2, e3, e4, e5⟩ := insertAt_spec (h := h0) (k := x.2) (c := h.newL) (p := p) tp
  obtain ⟨X1, Y1, eX, eI, hsp⟩ := insertLevel_split (n := Level.new p) (r.sorted x) hnone
  have hXL : X1 = L1 ∧ Y1 = L2 := by
    rw [e5 (Level.new p) rfl] at eI
    rw [e2] at eX
    have hn2 : ∀ l ∈ L1 ++ L2, l ≠ Level.new p := fun l hl e => hnone l (e2 ▸ hl) (by rw [e]; rfl)
    obtain ⟨q1, q2⟩ := mid_inj eI (fun hm => hn2 _ (List.mem_append_left _ hm) rfl)
      (fun hm => hn2 (Level.new p) (by rw [eX]; exact List.mem_append_left _ hm) rfl)
    exact ⟨q1.symm, q2.symm⟩
  rw [hXL.1, hXL.2] at hsp
  have tt := r.trees x
  rw [e2] at tt
  obtain ⟨B1, B2, eB, t1, t2⟩ := tt.split
  have hB : B1 = A1 ∧ B2 = A2 := by
    rw [e1] at eB
    have hl : A1.length = B1.length := by rw [e3]; exact t1.length.symm
    obtain ⟨q1, q2⟩ := List.append_inj eB hl
    exact ⟨q1.symm, q2.symm⟩
  rw [hB.1] at t1
  rw [hB.2] at t2
  let h1 : Heap := { h0 with tree := setX h.tree x (A1 ++ h.newL :: A2) }
  have hkeep : ∀ (h' : Heap), h'.lnode = h1.lnode → h'.tree = h1.tree → ∀ y lb q, LAt h y lb q → LAt h' y lb q := by
    intro h' q1 q2 y lb q ⟨hm, n, hn, hp⟩
    refine ⟨?_, n, ?_, hp⟩
    · rw [q2]
      show lb ∈ setX h.tree x _ y
      by_cases hy : y = x
      · subst hy
        rw [setX_same]
        rw [e1] at hm
        rcases List.mem_append.mp hm with q | q
        · exact List.mem_append_left _ q
        · exact List.mem_append_right _ (List.mem_cons_of_mem _ q)
      · rw [setX_other _ _ hy]; exact hm
    · rw [q1]
      show setX h.lnode h.newL _ lb = _
      rw [setX_other _ _ (hnew hn)]; exact hn
  have hlat : ∀ (h' : Heap), h'.lnode = h1.lnode → h'.tree = h1.tree → LAt h' x h.newL p := by
    intro h' q1 q2
    refine ⟨?_, LNode.new x.2.isBidType p, ?_, rfl⟩
    · rw [q2]; show h.newL ∈ setX h.tree x _ x; rw [setX_same]; simp
    · rw [q1]; show setX h.lnode h.newL _ h.newL = _; rw [setX_same]
  have e4' : h0.insertAt x.2 h.newL p (h0.tree x) = .ok (A1 ++ h.newL :: A2) := e4
  have hbest := r.best x
  have hgo : ∀ {b : Col → Option Nat}, (∀ y, y ≠ x → b y = h.best y) → b x = (A1 ++ h.newL :: A2).head? →
      Rep ({ h1 with best := b }) M (setX lv x (L1 ++ Level.new p :: L2)) out := by
    intro b hb1 hb2
    exact r.newLevel (h' := { h1 with best := b }) e2 e1 t1 t2 hsp rfl rfl rfl rfl rfl rfl hb1 hb2
  cases hbx : h.best x with
  | none =>
    rw [hbx] at hbest
    have hnil : A1 = [] := by
      cases A1 with
      | nil => rfl
      | cons a A1 => rw [e1] at hbest; cases hbest
    refine ⟨{ h1 with best := setX h.best x (some h.newL) }, L1, L2, ?_, e2, e5, ?_, rfl, rfl, hlat _ rfl rfl, hkeep _ rfl rfl⟩
    · unfold Heap.addLevel
      dsimp only
      rw [show h0.insertAt x.2 h.newL p (h.tree x) = _ from e4, Except.bind_ok]
      rw [show h.best x = none from hbx]
    · exact hgo (fun y hy => setX_other _ _ hy) (by rw [setX_same, hnil]; rfl)
  | some b =>
    rw [hbx] at hbest
    have hbt : b ∈ h.tree x := List.mem_of_head? hbest.symm
    rcases (Trees.head (by rw [← e1]; exact tp : Trees _ (A1 ++ A2) (lv x))) with ⟨q, _⟩ | ⟨a, as', l, ls', qa, ql, ⟨n, hn, hnp⟩, _⟩
    · rw [e1, q] at hbt; cases hbt
    · have hab : a = b := by
        rw [e1, qa] at hbest
        exact (Option.some.inj hbest).symm
      subst hab
      by_cases hbet : x.2.better p n.price = true
      · have hA1 : A1 = [] := by
          have hL : L1 = [] := by
            cases hL : L1 with
            | nil => rfl
            | cons m L1' =>
              have hml : m = l := by
                have := e2; rw [hL, ql] at this; exact (List.cons.inj this).1.symm
              have := hsp.left m (by rw [hL]; exact List.mem_cons_self)
              rw [hml, ← hnp] at this
              have h2 := better_asymm hbet
              exact Bool.noConfusion (h2.symm.trans this)
          rw [hL] at e3
          exact List.length_eq_zero_iff.mp e3
        refine ⟨{ h1 with best := setX h.best x (some h.newL) }, L1, L2, ?_, e2, e5, ?_, rfl, rfl, hlat _ rfl rfl, hkeep _ rfl rfl⟩
        · unfold Heap.addLevel
          dsimp only
          rw [show h0.insertAt x.2 h.newL p (h.tree x) = _ from e4, Except.bind_ok]
          rw [show h.best x = some a from hbx]
          dsimp only
          rw [level_eq (h := h1) (n := n) hn, Except.bind_ok, if_pos hbet]
        · exact hgo (fun y hy => setX_other _ _ hy) (by rw [setX_same, hA1]; rfl)
      · refine ⟨h1, L1, L2, ?_, e2, e5, ?_, rfl, rfl, hlat _ rfl rfl, hkeep _ rfl rfl⟩
        · unfold Heap.addLevel
          dsimp only
          rw [show h0.insertAt x.2 h.newL p (h.tree x) = _ from e4, Except.bind_ok]
          rw [show h.best x = some a from hbx]
          dsimp only
          rw [level_eq (h := h1) (n := n) hn, Except.bind_ok, if_neg hbet]
        · have : Rep ({ h1 with best := h.best }) M (setX lv x (L1 ++ Level.new p :: L2)) out := by
            refine hgo (fun _ _ => rfl) ?_
            rw [hbx]
            cases hA : A1 with
            | cons c A1' =>
              rw [hA] at qa
              rw [(List.cons.inj qa).1]; rfl
            | nil =>
              exfalso
              have hL : L1 = [] := by rw [hA] at e3; exact List.length_eq_zero_iff.mp e3.symm
              rw [hL] at e2
              have : l ∈ L2 := by rw [← List.nil_append L2, ← e2, ql]; exact List.mem_cons_self
              exact hbet (by rw [hnp]; exact hsp.right l this)
          exact this

theorem after_mid {A1 A2 : List Nat} {a : Nat} (hn : a ∉ A1) : Heap.after (A1 ++ a :: A2) a = A2.head? := by
  induction A1 with
  | nil => show (if a = a then _ else _) = _; rw [if_pos rfl]
  | cons b A1 ih =>
    show (if b = a then _ else _) = _
    rw [if_neg (fun e => hn (by rw [e]; exact List.mem_cons_self)), ]
    exact ih (fun hm => hn (List.mem_cons_of_mem _ hm))

theorem deleteLevel_spec (r : Rep h M lv out) {x : Col} {L1 L2 : List Level} {l : Level} (hx : lv x = L1 ++ l :: L2) {la : Nat}
    (hla : LAt h x la l.price) : ∃ h', h.deleteLevel x la = .ok h' ∧ Rep h' M (setX lv x (L1 ++ L2)) out ∧ h'.orders = h.orders ∧
      h'.onode = h.onode ∧ ∀ y lb q, LAt h y lb q → (y, q) ≠ (x, l.price) → LAt h' y lb q := by
  obtain ⟨A1, A2, ht, t1, hrep, t2⟩ := r.lat hx hla
  have hnd := r.nodup x
  rw [ht] at hnd
  have hn1 : la ∉ A1 := fun hm => (List.nodup_append.mp hnd).2.2 la hm la List.mem_cons_self rfl
  have hn2 : la ∉ A2 := (List.nodup_cons.mp (List.nodup_append.mp hnd).2.1).1
  have her : (h.tree x).erase la = A1 ++ A2 := by rw [ht]; exact erase_mid hnd
  have hnot : ∀ y a, a ∈ h.tree y → y ≠ x → a ≠ la := by
    intro y a ha hy e
    exact hy (r.apart y x la (e ▸ ha) hla.1)
  refine ⟨{ h with best := if h.best x = some la then setX h.best x (Heap.after (h.tree x) la) else h.best, tree := setX h.tree x (A1 ++ A2), lnode := setX h.lnode la none }, ?_, ?_, rfl, rfl, ?_⟩
  · unfold Heap.deleteLevel Heap.releaseLevel
    dsimp only
    rw [hrep.1, her]
  · refine ⟨r.back, r.fwd, r.full, r.outOk, ?_, ?_, ?_, ?_, ?_, ?_, ?_, ?_, ?_⟩
    · intro y
      show Trees _ (setX h.tree x (A1 ++ A2) y) (setX lv x (L1 ++ L2) y)
      have hfr : ∀ y a l, l ∈ lv y → a ≠ la → LevelRep h y.2 a l → LevelRep ({ h with best := if h.best x = some la then setX h.best x (Heap.after (h.tree x) la) else h.best, tree := setX h.tree x (A1 ++ A2), lnode := setX h.lnode la none }) y.2 a l := by
        intro y a l hl hne hr
        exact hr.frame (r.idsNodup y l hl) (setX_other _ _ hne) (fun _ _ => rfl) (fun _ _ _ _ => rfl)
      by_cases hy : y = x
      · subst hy
        rw [setX_same, setX_same]
        refine Trees.append (t1.mono ?_) (t2.mono ?_)
        · intro a ha m hm hr; exact hfr y a m (by rw [hx]; exact List.mem_append_left _ hm) (fun e => hn1 (e ▸ ha)) hr
        · intro a ha m hm hr; exact hfr y a m (by rw [hx]; exact List.mem_append_right _ (List.mem_cons_of_mem _ hm)) (fun e => hn2 (e ▸ ha)) hr
      · rw [setX_other _ _ hy, setX_other _ _ hy]
        exact (r.trees y).mono (fun a ha m hm hr => hfr y a m hm (hnot y a ha hy) hr)
    · intro a n ha
      have ha' : setX h.lnode la none a = some n := ha
      by_cases hal : a = la
      · rw [hal, setX_same] at ha'; cases ha'
      · rw [setX_other _ _ hal] at ha'
        obtain ⟨q1, y, q2⟩ := r.lfull a n ha'
        refine ⟨q1, y, ?_⟩
        show a ∈ setX h.tree x (A1 ++ A2) y
        by_cases hy : y = x
        · subst hy
          rw [setX_same]
          rw [ht] at q2
          rcases List.mem_append.mp q2 with q | q
          · exact List.mem_append_left _ q
          · rcases List.mem_cons.mp q with q | q
            · exact absurd q hal
            · exact List.mem_append_right _ q
        · rw [setX_other _ _ hy]; exact q2
    · intro y
      show (setX h.tree x (A1 ++ A2) y).Nodup
      by_cases hy : y = x
      · subst hy; rw [setX_same, ← her]; exact (r.nodup y).erase _
      · rw [setX_other _ _ hy]; exact r.nodup y
    · have hin : ∀ y a, a ∈ setX h.tree x (A1 ++ A2) y → a ∈ h.tree y := by
        intro y a ha
        by_cases hy : y = x
        · subst hy; rw [setX_same] at ha; rw [ht]
          rcases List.mem_append.mp ha with q | q
          · exact List.mem_append_left _ q
          · exact List.mem_append_right _ (List.mem_cons_of_mem _ q)
        · rw [setX_other _ _ hy] at ha; exact ha
      intro y z a ha hb
      exact r.apart y z a (hin y a ha) (hin z a hb)
    · intro y
      show (if h.best x = some la then setX h.best x (Heap.after (h.tree x) la) else h.best) y = (setX h.tree x (A1 ++ A2) y).head?
      have hb := r.best x
      by_cases hy : y = x
      · subst hy
        rw [setX_same]
        by_cases hc : h.best y = some la
        · rw [if_pos hc, setX_same, ht, after_mid hn1]
          have : A1 = [] := by
            cases hA : A1 with
            | nil => rfl
            | cons b A1' =>
              exfalso
              rw [hc, ht, hA] at hb
              exact hn1 (by rw [hA, Option.some.inj hb]; exact List.mem_cons_self)
          rw [this]; rfl
        · rw [if_neg hc, hb, ht]
          cases hA : A1 with
          | nil => rw [hb, ht, hA] at hc; exact absurd rfl hc
          | cons b A1' => rfl
      · rw [setX_other _ _ hy, ← r.best y]
        split
        · rw [setX_other _ _ hy]
        · rfl
    · intro y
      by_cases hy : y = x
      · subst hy; rw [setX_same]; exact sorted_remove (hx ▸ r.sorted y)
      · rw [setX_other _ _ hy]; exact r.sorted y
    all_goals
      have hcase : ∀ y m, m ∈ setX lv x (L1 ++ L2) y → m ∈ lv y := by
        intro y m hm
        by_cases hy : y = x
        · subst hy
          rw [setX_same] at hm
          rw [hx]
          rcases List.mem_append.mp hm with q | q
          · exact List.mem_append_left _ q
          · exact List.mem_append_right _ (List.mem_cons_of_mem _ q)
        · rw [setX_other _ _ hy] at hm; exact hm
    · intro y m hm; exact r.idsNodup y m (hcase y m hm)
    · intro y m hm; exact r.count y m (hcase y m hm)
    · intro y m hm; exact r.mem y m (hcase y m hm)
  · intro y lb q hq hne
    obtain ⟨hm, n, hn, hp⟩ := hq
    have hlb : lb ≠ la := by
      intro e
      subst e
      have hyx := r.apart y x lb hm hla.1
      rw [hrep.1] at hn
      cases hn
      exact hne (Prod.ext hyx hp.symm)
    refine ⟨?_, n, ?_, hp⟩
    · show lb ∈ setX h.tree x (A1 ++ A2) y
      by_cases hy : y = x
      · subst hy
        rw [setX_same]
        rw [ht] at hm
        rcases List.mem_append.mp hm with q | q
        · exact List.mem_append_left _ q
        · rcases List.mem_cons.mp q with q | q
          · exact absurd q hlb
          · exact List.mem_append_right _ q
      · rw [setX_other _ _ hy]; exact hm
    · show setX h.lnode la none lb = _
      rw [setX_other _ _ hlb]; exact hn

/-! ### Orders in and out of the map -/

theorem unlinked_frame {h h' : Heap} (r : Rep h M lv out) {lv' : Col → List Level} (hlv : lv' = lv) (hlo : ∀ i o, M i = some o → Linked lv i → h'.orders i = h.orders i)
    (hon : ∀ i a, Linked lv i → h.orders i = some a → h'.onode a = h.onode a) (hln : h'.lnode = h.lnode) (htr : h'.tree = h.tree) :
    ∀ x, Trees (LevelRep h' x.2) (h'.tree x) (lv' x) := by
  subst hlv
  intro x
  rw [htr]
  refine (r.trees x).mono ?_
  intro a _ l hl hr
  refine hr.frame (r.idsNodup x l hl) (by rw [hln]) ?_ ?_
  · intro i hi
    obtain ⟨o, ho, _⟩ := r.mem x l hl i hi
    exact hlo i o ho ⟨x, l, hl, hi⟩
  · intro i hi b hb
    exact hon i b ⟨x, l, hl, hi⟩ hb

/-- `_orders.erase` of an unlinked order, which is kept aside. -/
theorem Rep.takeOut (r : Rep h M lv none) {i a : Nat} {o : Order} (hi : M i = some o) (ha : h.orders i = some a) (hl : ¬ Linked lv i) :
    Rep (h.erase i) (setO M i none) lv (some (a, o)) := by
  obtain ⟨n, hn, hno, hid⟩ := r.nodeAt hi ha
  have ho : ∀ j b, (h.erase i).orders j = some b → j ≠ i ∧ h.orders j = some b := by
    intro j b hj
    have hj' : setX h.orders i none j = some b := hj
    by_cases hji : j = i
    · rw [hji, setX_same] at hj'; cases hj'
    · rw [setX_other _ _ hji] at hj'; exact ⟨hji, hj'⟩
  refine ⟨?_, ?_, ?_, ?_, ?_, r.lfull, r.nodup, r.apart, r.best, r.sorted, r.idsNodup, r.count, ?_⟩
  · intro j b hj
    obtain ⟨hji, hj⟩ := ho j b hj
    obtain ⟨m, h1, h2, h3⟩ := r.back j b hj
    exact ⟨m, h1, h2, (setO_off _ _ hji).trans h3⟩
  · intro j u hj
    have hji : j ≠ i := by intro e; rw [e, setO_at'] at hj; cases hj
    rw [setO_off _ _ hji] at hj
    obtain ⟨b, hb⟩ := r.fwd j u hj
    exact ⟨b, (setX_other _ _ hji).trans hb⟩
  · intro b m hb
    obtain ⟨q1, q2⟩ := r.full b m hb
    refine ⟨q1, ?_⟩
    rcases q2 with ⟨j, hj⟩ | ⟨t, ht⟩
    · by_cases hji : j = i
      · subst hji
        rw [ha] at hj; cases hj
        exact .inr ⟨o, rfl⟩
      · exact .inl ⟨j, (setX_other _ _ hji).trans hj⟩
    · cases ht
  · intro b t hb
    cases hb
    refine ⟨⟨n, hn, hno⟩, ?_⟩
    intro j hj
    obtain ⟨hji, hj⟩ := ho j a hj
    exact hji (r.inj hj ha)
  · refine unlinked_frame r rfl ?_ (fun _ _ _ _ => rfl) rfl rfl
    intro j _ _ hlj
    exact setX_other _ _ (fun e => hl (e ▸ hlj))
  · intro x l hlm j hj
    have hji : j ≠ i := fun e => hl ⟨x, l, hlm, e ▸ hj⟩
    obtain ⟨u, q⟩ := r.mem x l hlm j hj
    exact ⟨u, (setO_off _ _ hji).trans q.1, q.2⟩

/-- `_orders.insert` of the order kept aside. -/
theorem Rep.putIn {a : Nat} {t : Order} (r : Rep h M lv (some (a, t))) (hf : M t.id = none) :
    Rep (h.insert t.id a) (setO M t.id (some t)) lv none := by
  obtain ⟨⟨n, hn, hno⟩, hnot⟩ := r.outOk a t rfl
  have hfr : h.orders t.id = none := by
    cases hc : h.orders t.id with
    | none => rfl
    | some b =>
      obtain ⟨m, _, _, h3⟩ := r.back t.id b hc
      rw [hf] at h3; cases h3
  have hnl : ¬ Linked lv t.id := by
    rintro ⟨x, l, hl, hi⟩
    obtain ⟨o, ho, _⟩ := r.mem x l hl t.id hi
    rw [hf] at ho; cases ho
  refine ⟨?_, ?_, ?_, ?_, ?_, r.lfull, r.nodup, r.apart, r.best, r.sorted, r.idsNodup, r.count, ?_⟩
  · intro j b hj
    have hj' : setX h.orders t.id (some a) j = some b := hj
    by_cases hji : j = t.id
    · subst hji
      rw [setX_same] at hj'; cases hj'
      exact ⟨n, hn, by rw [hno], by rw [hno]; exact setO_at' _ _ _⟩
    · rw [setX_other _ _ hji] at hj'
      obtain ⟨m, h1, h2, h3⟩ := r.back j b hj'
      exact ⟨m, h1, h2, (setO_off _ _ hji).trans h3⟩
  · intro j u hj
    by_cases hji : j = t.id
    · subst hji; exact ⟨a, setX_same _ _ _⟩
    · rw [setO_off _ _ hji] at hj
      obtain ⟨b, hb⟩ := r.fwd j u hj
      exact ⟨b, (setX_other _ _ hji).trans hb⟩
  · intro b m hb
    obtain ⟨q1, q2⟩ := r.full b m hb
    refine ⟨q1, .inl ?_⟩
    rcases q2 with ⟨j, hj⟩ | ⟨u, hu⟩
    · refine ⟨j, (setX_other _ _ ?_).trans hj⟩
      intro e
      rw [e, hfr] at hj; cases hj
    · cases hu
      exact ⟨t.id, setX_same _ _ _⟩
  · intro b u hb; cases hb
  · refine unlinked_frame r rfl ?_ (fun _ _ _ _ => rfl) rfl rfl
    intro j _ _ hlj
    exact setX_other _ _ (fun e => hnl (e ▸ hlj))
  · intro x l hlm j hj
    have hji : j ≠ t.id := fun e => hnl ⟨x, l, hlm, e ▸ hj⟩
    obtain ⟨u, q⟩ := r.mem x l hlm j hj
    exact ⟨u, (setO_off _ _ hji).trans q.1, q.2⟩

/-- `_order_pool.Release` of the order kept aside. -/
theorem Rep.releaseOut {a : Nat} {t : Order} (r : Rep h M lv (some (a, t))) :
    ∃ h', h.releaseOrder a = .ok h' ∧ Rep h' M lv none ∧ h'.orders = h.orders ∧ h'.tree = h.tree ∧ h'.lnode = h.lnode := by
  obtain ⟨⟨n, hn, hno⟩, hnot⟩ := r.outOk a t rfl
  refine ⟨{ h with onode := setX h.onode a none }, by unfold Heap.releaseOrder; rw [hn], ?_, rfl, rfl, rfl⟩
  have hne : ∀ {j b}, h.orders j = some b → b ≠ a := fun hj e => hnot _ (e ▸ hj)
  refine ⟨?_, r.fwd, ?_, ?_, ?_, r.lfull, r.nodup, r.apart, r.best, r.sorted, r.idsNodup, r.count, r.mem⟩
  · intro j b hj
    obtain ⟨m, h1, h2, h3⟩ := r.back j b hj
    exact ⟨m, (setX_other _ _ (hne hj)).trans h1, h2, h3⟩
  · intro b m hb
    have hb' : setX h.onode a none b = some m := hb
    by_cases hba : b = a
    · rw [hba, setX_same] at hb'; cases hb'
    · rw [setX_other _ _ hba] at hb'
      obtain ⟨q1, q2⟩ := r.full b m hb'
      refine ⟨q1, ?_⟩
      rcases q2 with q2 | ⟨u, hu⟩
      · exact .inl q2
      · cases hu; exact absurd rfl hba
  · intro b u hb; cases hb
  · refine unlinked_frame r rfl (fun _ _ _ _ => rfl) ?_ rfl rfl
    intro j b _ hj
    exact setX_other _ _ (hne hj)

/-- `_order_pool.Create`. -/
theorem Rep.create (r : Rep h M lv none) (o : Order) :
    Rep (h.createOrder o).1 M lv (some ((h.createOrder o).2, o)) := by
  have hne : ∀ {b n}, h.onode b = some n → b ≠ h.newO := by
    intro b n hb
    exact r.newO hb
  have hno : ∀ {j b}, h.orders j = some b → b ≠ h.newO := by
    intro j b hj
    obtain ⟨m, h1, _⟩ := r.back j b hj
    exact hne h1
  refine ⟨?_, r.fwd, ?_, ?_, ?_, r.lfull, r.nodup, r.apart, r.best, r.sorted, r.idsNodup, r.count, r.mem⟩
  · intro j b hj
    obtain ⟨m, h1, h2, h3⟩ := r.back j b hj
    exact ⟨m, (setX_other _ _ (hno hj)).trans h1, h2, h3⟩
  · intro b m hb
    have hb' : setX h.onode h.newO (some (ONode.new o)) b = some m := hb
    show b < max h.freshO (h.newO + 1) ∧ _
    by_cases hba : b = h.newO
    · subst hba; exact ⟨by omega, .inr ⟨o, rfl⟩⟩
    · rw [setX_other _ _ hba] at hb'
      obtain ⟨q1, q2⟩ := r.full b m hb'
      refine ⟨by omega, ?_⟩
      rcases q2 with q2 | ⟨u, hu⟩
      · exact .inl q2
      · cases hu
  · intro b u hb
    cases hb
    exact ⟨⟨_, setX_same _ _ _, rfl⟩, fun j hj => hno hj rfl⟩
  · refine unlinked_frame r rfl (fun _ _ _ _ => rfl) ?_ rfl rfl
    intro j b _ hj
    exact setX_other _ _ (hno hj)

/-- `_orders.erase` and `_order_pool.Release` of an unlinked order. -/
theorem Rep.drop (r : Rep h M lv none) {i a : Nat} {o : Order} (hi : M i = some o) (ha : h.orders i = some a) (hl : ¬ Linked lv i) :
    ∃ h', (h.erase i).releaseOrder a = .ok h' ∧ Rep h' (setO M i none) lv none ∧ h'.orders = setX h.orders i none ∧ h'.tree = h.tree ∧ h'.lnode = h.lnode := by
  obtain ⟨h', e, q, q1, q2, q3⟩ := (r.takeOut hi ha hl).releaseOut
  exact ⟨h', e, q, q1, q2, q3⟩

end Ptr
end CppTrader
