import Verif.Proof.HeapRep
/-
The elementary changes of a heap, and what they do to the orders and levels it holds.
-/

namespace CppTrader
namespace Ptr

variable {h h' : Heap} {M : Nat → Option Order} {lv : Col → List Level} {out : Option (Nat × Order)}

theorem setO_at' (m : Nat → Option Order) (i : Nat) (v : Option Order) : setO m i v i = v := by unfold setO; rw [if_pos rfl]
theorem setO_off (m : Nat → Option Order) {i j : Nat} (v : Option Order) (hj : j ≠ i) : setO m i v j = m j := by unfold setO; rw [if_neg hj]
theorem setO_self {m : Nat → Option Order} {i : Nat} {v : Option Order} (hv : m i = v) : setO m i v = m := by
  funext j; unfold setO; split
  · rename_i e; rw [e, hv]
  · rfl

/-- One node changes. -/
theorem Rep.touch (r : Rep h M lv out) {i a : Nat} {n : ONode} (ha : h.orders i = some a) (hn : h.onode a = some n) (f : ONode → ONode)
    (hid : (f n).order.id = i)
    (hl : Linked lv i → (f n).level = n.level ∧ (f n).next = n.next ∧ (f n).prev = n.prev ∧ (f n).order.symbolId = n.order.symbolId ∧
      (f n).order.kind = n.order.kind ∧ (f n).order.key = n.order.key) :
    Rep (upd h (some a) f) (setO M i (some (f n).order)) lv out := by
  have hoff : ∀ b, b ≠ a → (upd h (some a) f).onode b = h.onode b := fun b hb => upd_other (fun e => hb (Option.some.inj e).symm)
  have hat : (upd h (some a) f).onode a = some (f n) := by rw [upd_node hn, if_pos rfl]
  have ho : ∀ j b, h.orders j = some b → j ≠ i → b ≠ a := fun j b hj hne e => hne (r.inj (e ▸ hj) ha)
  have hMi : M i = some n.order := by
    obtain ⟨n', h1, _, h3⟩ := r.back i a ha
    rw [hn] at h1; cases h1; exact h3
  refine ⟨?_, ?_, ?_, ?_, ?_, r.lfull, r.nodup, r.apart, r.best, r.sorted, r.idsNodup, r.count, ?_⟩
  · intro j b hj
    by_cases hji : j = i
    · subst hji
      have : b = a := Option.some.inj ((show h.orders j = some b from hj).symm.trans ha)
      subst this
      exact ⟨_, hat, hid, setO_at' _ _ _⟩
    · obtain ⟨m, h1, h2, h3⟩ := r.back j b hj
      exact ⟨m, (hoff b (ho j b hj hji)).trans h1, h2, (setO_off _ _ hji).trans h3⟩
  · intro j o hj
    by_cases hji : j = i
    · subst hji; exact ⟨a, ha⟩
    · exact r.fwd j o ((setO_off _ _ hji).symm.trans hj)
  · intro b m hb
    by_cases hba : b = a
    · subst hba; exact r.full b n hn
    · exact r.full b m ((hoff b hba).symm.trans hb)
  · intro b t hb
    obtain ⟨⟨m, h1, h2⟩, h3⟩ := r.outOk b t hb
    have hba : b ≠ a := fun e => h3 i (e ▸ ha)
    exact ⟨⟨m, (hoff b hba).trans h1, h2⟩, h3⟩
  · intro x
    refine (r.trees x).mono ?_
    intro la _ l hlm hrep
    refine ⟨hrep.1, ?_⟩
    intro j hj
    obtain ⟨b, m, h1, h2, h3, h4, h5⟩ := hrep.2 j hj
    by_cases hji : j = i
    · subst hji
      have : b = a := Option.some.inj (h1.symm.trans ha)
      subst this
      rw [hn] at h2; cases h2
      obtain ⟨q1, q2, q3, _⟩ := hl ⟨x, l, hlm, hj⟩
      exact ⟨b, _, h1, hat, q1.trans h3, q2.trans h4, q3.trans h5⟩
    · exact ⟨b, m, h1, (hoff b (ho j b h1 hji)).trans h2, h3, h4, h5⟩
  · intro x l hlm j hj
    obtain ⟨o, h1, h2, h3, h4⟩ := r.mem x l hlm j hj
    by_cases hji : j = i
    · subst hji
      rw [hMi] at h1; cases h1
      obtain ⟨_, _, _, q4, q5, q6⟩ := hl ⟨x, l, hlm, hj⟩
      exact ⟨_, setO_at' _ _ _, q4.trans h2, q5.trans h3, q6.trans h4⟩
    · exact ⟨o, (setO_off _ _ hji).trans h1, h2, h3, h4⟩

theorem Rep.write (r : Rep h M lv out) {i a : Nat} {o o' : Order} (hi : M i = some o) (ha : h.orders i = some a) (hid : o'.id = i)
    (hl : Linked lv i → o'.symbolId = o.symbolId ∧ o'.kind = o.kind ∧ o'.key = o.key) :
    h.write a o' = .ok (upd h (some a) (fun n => { n with order := o' })) ∧
      Rep (upd h (some a) (fun n => { n with order := o' })) (setO M i (some o')) lv out := by
  obtain ⟨n, hn, hno, _⟩ := r.nodeAt hi ha
  refine ⟨modOrder_eq hn _, r.touch ha hn _ hid ?_⟩
  intro hk
  obtain ⟨q1, q2, q3⟩ := hl hk
  rw [hno]
  exact ⟨rfl, rfl, rfl, q1, q2, q3⟩

theorem Rep.writeOut {a : Nat} {t : Order} (r : Rep h M lv (some (a, t))) (t' : Order) :
    h.write a t' = .ok (upd h (some a) (fun n => { n with order := t' })) ∧
      Rep (upd h (some a) (fun n => { n with order := t' })) M lv (some (a, t')) := by
  obtain ⟨⟨n, hn, hno⟩, hno'⟩ := r.outOk a t rfl
  refine ⟨modOrder_eq hn _, ?_⟩
  have hoff : ∀ b, b ≠ a → (upd h (some a) (fun n => { n with order := t' })).onode b = h.onode b := fun b hb => upd_other (fun e => hb (Option.some.inj e).symm)
  have hat : (upd h (some a) (fun n => { n with order := t' })).onode a = some { n with order := t' } := by rw [upd_node hn, if_pos rfl]
  have ho : ∀ j b, h.orders j = some b → b ≠ a := fun j b hj e => hno' j (e ▸ hj)
  refine ⟨?_, r.fwd, ?_, ?_, ?_, r.lfull, r.nodup, r.apart, r.best, r.sorted, r.idsNodup, r.count, r.mem⟩
  · intro j b hj
    obtain ⟨m, h1, h2, h3⟩ := r.back j b hj
    exact ⟨m, (hoff b (ho j b hj)).trans h1, h2, h3⟩
  · intro b m hb
    by_cases hba : b = a
    · subst hba; exact ⟨(r.full b n hn).1, .inr ⟨t', rfl⟩⟩
    · obtain ⟨q1, q2⟩ := r.full b m ((hoff b hba).symm.trans hb)
      refine ⟨q1, ?_⟩
      rcases q2 with q2 | ⟨t2, q2⟩
      · exact .inl q2
      · cases q2; exact absurd rfl hba
  · intro b u hb
    cases hb
    exact ⟨⟨_, hat, rfl⟩, hno'⟩
  · intro x
    refine (r.trees x).mono ?_
    intro la _ l hlm hrep
    exact hrep.frame (r.idsNodup x l hlm) rfl (fun _ _ => rfl) (fun i _ b hb => hoff b (ho i b hb))

/-- One level changes. -/
theorem Rep.relevel (r : Rep h M lv out) {x : Col} {la : Nat} {l l' : Level} {L1 L2 : List Level} {A1 A2 : List Nat}
    (hx : lv x = L1 ++ l :: L2) (ht : h.tree x = A1 ++ la :: A2) (t1 : Trees (LevelRep h x.2) A1 L1) (t2 : Trees (LevelRep h x.2) A2 L2)
    (hs : Steady h h') (hp : l'.price = l.price) (hl : ∀ b, b ≠ la → h'.lnode b = h.lnode b) (hrep : LevelRep h' x.2 la l')
    (ho : ∀ b, (h'.onode b).map (·.order) = (h.onode b).map (·.order))
    (hn : ∀ b, (∀ i ∈ l.ids ++ l'.ids, h.orders i ≠ some b) → h'.onode b = h.onode b)
    (hnew : ∀ i ∈ l'.ids, i ∈ l.ids ∨ ¬ Linked lv i)
    (hmem : ∀ i ∈ l'.ids, ∃ o, M i = some o ∧ o.symbolId = x.1 ∧ o.kind = some x.2 ∧ o.key = l.price)
    (hnd : l'.ids.Nodup) (hc : l'.count = l'.ids.length) (hin : ∃ n, h.lnode la = some n) :
    Rep h' M (setX lv x (L1 ++ l' :: L2)) out := by
  have hnode : ∀ {b n}, h.onode b = some n → ∃ n', h'.onode b = some n' ∧ n'.order = n.order := by
    intro b n hb
    have := ho b
    rw [hb] at this
    cases hc : h'.onode b with
    | none => rw [hc] at this; cases this
    | some n' => rw [hc] at this; exact ⟨n', rfl, Option.some.inj this⟩
  have hback : ∀ {b n}, h'.onode b = some n → ∃ n', h.onode b = some n' := by
    intro b n hb
    have := ho b
    rw [hb] at this
    cases hc : h.onode b with
    | none => rw [hc] at this; cases this
    | some n' => exact ⟨n', rfl⟩
  have hlx : l ∈ lv x := by rw [hx]; simp
  have hso := r.sorted x
  rw [hx] at hso
  -- a level other than the changed one stays as it is
  have hother : ∀ y m b, m ∈ lv y → b ∈ h.tree y → ((y, m.price) ≠ (x, l.price)) → b ≠ la → LevelRep h y.2 b m → LevelRep h' y.2 b m := by
    intro y m b hm hb hne hbla hr
    refine hr.frame (r.idsNodup y m hm) (hl b hbla) (fun i _ => by rw [hs.orders]) ?_
    intro i hi a ha
    apply hn
    intro j hj he
    have hij : j = i := r.inj he ha
    subst hij
    have hjl : j ∈ l.ids := by
      rcases List.mem_append.mp hj with hj | hj
      · exact hj
      · rcases hnew j hj with hj | hj
        · exact hj
        · exact absurd ⟨y, m, hm, hi⟩ hj
    obtain ⟨q1, q2⟩ := r.alone hm hi hlx hjl
    exact hne (Prod.ext q1 q2)
  have hnotin : la ∉ A1 ∧ la ∉ A2 := by
    have := r.nodup x
    rw [ht] at this
    constructor
    · intro hm; exact (List.nodup_append.mp this).2.2 la hm la List.mem_cons_self rfl
    · exact (List.nodup_cons.mp (List.nodup_append.mp this).2.1).1
  have hsp := sorted_mid hso
  have hmemx : ∀ {m}, m ∈ L1 ++ l' :: L2 → m = l' ∨ (m ∈ lv x ∧ m.price ≠ l.price) := by
    intro m hm
    rcases List.mem_append.mp hm with hm | hm
    · exact .inr ⟨by rw [hx]; exact List.mem_append_left _ hm, hsp.left_ne m hm⟩
    · rcases List.mem_cons.mp hm with hm | hm
      · exact .inl hm
      · exact .inr ⟨by rw [hx]; exact List.mem_append_right _ (List.mem_cons_of_mem _ hm), hsp.right_ne m hm⟩
  refine ⟨?_, ?_, ?_, ?_, ?_, ?_, ?_, ?_, ?_, ?_, ?_, ?_, ?_⟩
  · intro i a ha
    rw [hs.orders] at ha
    obtain ⟨n, h1, h2, h3⟩ := r.back i a ha
    obtain ⟨n', h4, h5⟩ := hnode h1
    exact ⟨n', h4, by rw [h5]; exact h2, by rw [h5]; exact h3⟩
  · intro i o hi
    rw [hs.orders]; exact r.fwd i o hi
  · intro a n hn'
    obtain ⟨n', hn''⟩ := hback hn'
    rw [hs.freshO, hs.orders]
    exact r.full a n' hn''
  · intro a t hat
    obtain ⟨⟨n, h1, h2⟩, h3⟩ := r.outOk a t hat
    obtain ⟨n', h4, h5⟩ := hnode h1
    rw [hs.orders]
    exact ⟨⟨n', h4, h5.trans h2⟩, h3⟩
  · intro y
    rw [hs.tree]
    by_cases hy : y = x
    · subst hy
      rw [setX_same, ht]
      refine Trees.append (t1.mono ?_) ⟨hrep, t2.mono ?_⟩
      · intro b hb m hm hr
        exact hother y m b (by rw [hx]; exact List.mem_append_left _ hm) (by rw [ht]; exact List.mem_append_left _ hb)
          (fun e => hsp.left_ne m hm (Prod.ext_iff.mp e).2) (fun e => hnotin.1 (e ▸ hb)) hr
      · intro b hb m hm hr
        exact hother y m b (by rw [hx]; exact List.mem_append_right _ (List.mem_cons_of_mem _ hm))
          (by rw [ht]; exact List.mem_append_right _ (List.mem_cons_of_mem _ hb))
          (fun e => hsp.right_ne m hm (Prod.ext_iff.mp e).2) (fun e => hnotin.2 (e ▸ hb)) hr
    · rw [setX_other _ _ hy]
      refine (r.trees y).mono ?_
      intro b hb m hm hr
      refine hother y m b hm hb (fun e => hy (Prod.ext_iff.mp e).1) ?_ hr
      intro e
      exact hy (r.apart y x la (e ▸ hb) (by rw [ht]; simp))
  · intro a n ha
    rw [hs.freshL, hs.tree]
    by_cases hla : a = la
    · subst hla
      obtain ⟨n', hn'⟩ := hin
      exact r.lfull a n' hn'
    · exact r.lfull a n ((hl a hla).symm.trans ha)
  · intro y; rw [hs.tree]; exact r.nodup y
  · rw [hs.tree]; exact r.apart
  · intro y; rw [hs.best, hs.tree]; exact r.best y
  · intro y
    by_cases hy : y = x
    · subst hy; rw [setX_same]; exact sorted_replace hso hp
    · rw [setX_other _ _ hy]; exact r.sorted y
  · intro y m hm
    by_cases hy : y = x
    · subst hy
      rw [setX_same] at hm
      rcases hmemx hm with e | ⟨e, _⟩
      · rw [e]; exact hnd
      · exact r.idsNodup y m e
    · rw [setX_other _ _ hy] at hm; exact r.idsNodup y m hm
  · intro y m hm
    by_cases hy : y = x
    · subst hy
      rw [setX_same] at hm
      rcases hmemx hm with e | ⟨e, _⟩
      · rw [e]; exact hc
      · exact r.count y m e
    · rw [setX_other _ _ hy] at hm; exact r.count y m hm
  · intro y m hm i hi
    by_cases hy : y = x
    · subst hy
      rw [setX_same] at hm
      rcases hmemx hm with e | ⟨e, _⟩
      · subst e
        obtain ⟨o, q1, q2, q3, q4⟩ := hmem i hi
        exact ⟨o, q1, q2, q3, q4.trans hp.symm⟩
      · exact r.mem y m e i hi
    · rw [setX_other _ _ hy] at hm; exact r.mem y m hm i hi

end Ptr
end CppTrader
