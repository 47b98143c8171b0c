import Verif.Spec
import Verif.Proof.Lists
/- Effect of the container primitives on a consistent collection. -/

namespace CppTrader

@[simp] theorem sumOver_nil (m f) : sumOver m f [] = 0 := rfl
theorem sumOver_cons (m f i ids) :
    sumOver m f (i :: ids) = qtyAt m f i + sumOver m f ids := by
  simp [sumOver]
theorem qtyAt_some {m f i o} (h : m i = some o) : qtyAt m f i = f o := by simp [qtyAt, h]
theorem sumOver_append (m f xs ys) : sumOver m f (xs ++ ys) = sumOver m f xs + sumOver m f ys := by
  simp [sumOver]

theorem sumOver_congr {m m' : Nat → Option Order} {f ids} (h : ∀ i ∈ ids, m i = m' i) :
    sumOver m f ids = sumOver m' f ids := by
  unfold sumOver
  congr 1
  apply List.map_congr_left
  intro i hi; simp only [qtyAt, h i hi]

theorem sumOver_erase {m f ids i o} (hi : i ∈ ids) (hm : m i = some o) :
    sumOver m f ids = f o + sumOver m f (ids.erase i) := by
  induction ids with
  | nil => simp at hi
  | cons a ids ih =>
    by_cases h : a = i
    · subst h; simp [sumOver_cons, qtyAt_some hm]
    · have h' : (a :: ids).erase i = a :: ids.erase i := by
        rw [List.erase_cons]; simp [h]
      rw [h', sumOver_cons, sumOver_cons, ih (by simpa [Ne.symm h] using hi)]
      omega

theorem sumOver_le {m : Nat → Option Order} {f g ids} (h : ∀ o, f o ≤ g o) :
    sumOver m f ids ≤ sumOver m g ids := by
  induction ids with
  | nil => simp
  | cons a ids ih =>
    rw [sumOver_cons, sumOver_cons]
    have : qtyAt m f a ≤ qtyAt m g a := by
      unfold qtyAt; cases m a with
      | none => simp
      | some o => exact h o
    omega

theorem sumOver_ge_mem {m f ids i o} (hi : i ∈ ids) (hm : m i = some o) : f o ≤ sumOver m f ids := by
  rw [sumOver_erase hi hm]; omega

theorem sumOver_pos_of_mem {m : Nat → Option Order} {ids} (hne : ids ≠ [])
    (h : ∀ i ∈ ids, ∃ o, m i = some o ∧ 0 < o.leaves) : 0 < sumOver m Order.leaves ids := by
  cases ids with
  | nil => simp at hne
  | cons a ids =>
    obtain ⟨o, ho, hl⟩ := h a (by simp)
    rw [sumOver_cons, qtyAt_some ho]; omega

theorem hidden_add_visible (o : Order) : o.hiddenQty + o.visibleQty = o.leaves := by
  unfold Order.hiddenQty Order.visibleQty; split <;> omega
theorem hidden_le (o : Order) : o.hiddenQty ≤ o.leaves := by have := hidden_add_visible o; omega
theorem visible_le (o : Order) : o.visibleQty ≤ o.leaves := by have := hidden_add_visible o; omega

@[simp] theorem setO_same (m i v) : setO m i v i = v := by simp [setO]
theorem setO_other (m : Nat → Option Order) {i j} (v) (h : j ≠ i) : setO m i v j = m j := by simp [setO, h]

theorem sumOver_setO_notMem {m f ids i v} (h : i ∉ ids) : sumOver (setO m i v) f ids = sumOver m f ids :=
  sumOver_congr fun _ hj => setO_other m v (fun e => h (e ▸ hj))

/-- Volume of a level list, from the levels' own totals. -/
def volOf (ls : List Level) : Nat := (ls.map (·.total)).sum
/-- Orders of a level list, best level first and in queue order. -/
def flatOf (ls : List Level) : List Nat := ls.flatMap (·.ids)

@[simp] theorem volOf_append (xs ys) : volOf (xs ++ ys) = volOf xs + volOf ys := by simp [volOf]
@[simp] theorem volOf_cons (l ys) : volOf (l :: ys) = l.total + volOf ys := by simp [volOf]
@[simp] theorem volOf_nil : volOf [] = 0 := rfl
@[simp] theorem flatOf_append (xs ys) : flatOf (xs ++ ys) = flatOf xs ++ flatOf ys := by simp [flatOf]
@[simp] theorem flatOf_cons (l ys) : flatOf (l :: ys) = l.ids ++ flatOf ys := by simp [flatOf]
@[simp] theorem flatOf_nil : flatOf [] = [] := rfl

theorem mem_flatOf {ls i} : i ∈ flatOf ls ↔ ∃ l ∈ ls, i ∈ l.ids := by simp [flatOf, List.mem_flatMap]

theorem LevelOK.congr {m m' sym k l} (h : LevelOK m sym k l) (hm : ∀ i ∈ l.ids, m i = m' i) :
    LevelOK m' sym k l where
  nonempty := h.nonempty
  nodup := h.nodup
  mem := fun i hi => by obtain ⟨o, ho, h'⟩ := h.mem i hi; exact ⟨o, hm i hi ▸ ho, h'⟩
  total := by rw [h.total]; exact sumOver_congr hm
  hidden := by rw [h.hidden]; exact sumOver_congr hm
  visible := by rw [h.visible]; exact sumOver_congr hm
  count := h.count

theorem KindOK.congr {m m' sym k ls best} (h : KindOK m sym k ls best)
    (hm : ∀ i ∈ flatOf ls, m i = m' i) : KindOK m' sym k ls best where
  sorted := h.sorted
  levels := fun l hl => (h.levels l hl).congr fun i hi => hm i (mem_flatOf.2 ⟨l, hl, hi⟩)
  best := h.best

theorem KindOK.mem {m sym k ls best i} (h : KindOK m sym k ls best) (hi : i ∈ flatOf ls) :
    ∃ o, m i = some o ∧ o.symbolId = sym ∧ o.kind = some k := by
  obtain ⟨l, hl, hi⟩ := mem_flatOf.1 hi
  obtain ⟨o, h1, h2, h3, _⟩ := (h.levels l hl).mem i hi
  exact ⟨o, h1, h2, h3⟩

/-- The level of an order inside a consistent collection. -/
theorem KindOK.level_of {m sym k ls best i o} (h : KindOK m sym k ls best) (hi : i ∈ flatOf ls)
    (ho : m i = some o) : ∃ xs l ys, ls = xs ++ l :: ys ∧ i ∈ l.ids ∧ l.price = o.key ∧
      Split k xs o.key ys ∧ LevelOK m sym k l := by
  obtain ⟨l, hl, hi'⟩ := mem_flatOf.1 hi
  obtain ⟨o', h1, h2, h3, h4⟩ := (h.levels l hl).mem i hi'
  have : o' = o := by rw [ho] at h1; exact (Option.some.inj h1).symm
  subst this
  obtain ⟨xs, ys, rfl⟩ := mem_split hl
  exact ⟨xs, l, ys, rfl, hi', h4.symm, h4 ▸ sorted_mid h.sorted, h.levels l hl⟩

theorem notMem_other {m sym k xs l ys i o best} (h : KindOK m sym k (xs ++ l :: ys) best)
    (ho : m i = some o) (hk : l.price = o.key) : i ∉ flatOf xs ∧ i ∉ flatOf ys := by
  have hs := sorted_mid h.sorted
  constructor
  · intro hi
    obtain ⟨x, hx, hi⟩ := mem_flatOf.1 hi
    obtain ⟨o', h1, _, _, h4⟩ := (h.levels x (by simp [hx])).mem i hi
    rw [ho] at h1; cases h1
    exact hs.left_ne x hx (by rw [← h4, hk])
  · intro hi
    obtain ⟨x, hx, hi⟩ := mem_flatOf.1 hi
    obtain ⟨o', h1, _, _, h4⟩ := (h.levels x (by simp [hx])).mem i hi
    rw [ho] at h1; cases h1
    exact hs.right_ne x hx (by rw [← h4, hk])

theorem level_total_pos {m sym k l} (h : LevelOK m sym k l) (hm : OrdersOK m) : 0 < l.total := by
  rw [h.total]
  apply sumOver_pos_of_mem h.nonempty
  intro i hi
  obtain ⟨o, ho, _⟩ := h.mem i hi
  exact ⟨o, ho, (hm i o ho).2.leaves⟩

/-! ### Adding an order -/

theorem push_ok {m sym k} {l : Level} {o : Order}
    (hne : l.ids = [] ∨ LevelOK m sym k l)
    (hnew : l.ids = [] → l = Level.new o.key)
    (hp : l.price = o.key) (hk : o.kind = some k) (hsym : o.symbolId = sym)
    (hid : m o.id = none) (hvol : l.total + o.leaves < W64) :
    LevelOK (setO m o.id (some o)) sym k (l.push o) := by
  have hnm : o.id ∉ l.ids := by
    intro hi
    rcases hne with h | h
    · simp [h] at hi
    · obtain ⟨o', ho', _⟩ := h.mem _ hi; simp [hid] at ho'
  have hmem : ∀ i ∈ l.ids, setO m o.id (some o) i = m i :=
    fun i hi => setO_other _ _ (fun e => hnm (e ▸ hi))
  have htot : l.total = sumOver m Order.leaves l.ids ∧ l.hidden = sumOver m Order.hiddenQty l.ids ∧
      l.visible = sumOver m Order.visibleQty l.ids ∧ l.count = l.ids.length ∧ l.ids.Nodup := by
    rcases hne with h | h
    · have := hnew h; rw [this]; simp [Level.new]
    · exact ⟨h.total, h.hidden, h.visible, h.count, h.nodup⟩
  obtain ⟨h1, h2, h3, h4, h5⟩ := htot
  have b2 : l.hidden ≤ l.total := by rw [h1, h2]; exact sumOver_le hidden_le
  have b3 : l.visible ≤ l.total := by rw [h1, h3]; exact sumOver_le visible_le
  have c2 := hidden_le o
  have c3 := visible_le o
  have hsum : ∀ f, sumOver (setO m o.id (some o)) f (l.ids ++ [o.id]) = sumOver m f l.ids + f o := by
    intro f
    rw [sumOver_append, sumOver_setO_notMem hnm]; simp [sumOver_cons, qtyAt]
  refine ⟨by simp [Level.push], ?_, ?_, ?_, ?_, ?_, ?_⟩
  · simp only [Level.push]
    rw [List.nodup_append]
    refine ⟨h5, by simp, ?_⟩
    intro a ha b hb; simp at hb; subst hb; exact fun e => hnm (e ▸ ha)
  · intro i hi
    simp only [Level.push, List.mem_append, List.mem_singleton] at hi
    rcases hi with hi | rfl
    · rcases hne with h | h
      · simp [h] at hi
      · obtain ⟨o', ho', hh⟩ := h.mem i hi
        exact ⟨o', by rw [hmem i hi]; exact ho', hh⟩
    · exact ⟨o, by simp, hsym, hk, hp.symm⟩
  · simp only [Level.push]; rw [add64_eq (by omega), hsum, h1]
  · simp only [Level.push]; rw [add64_eq (by omega), hsum, h2]
  · simp only [Level.push]; rw [add64_eq (by omega), hsum, h3]
  · simp [Level.push, h4]

/-- Where an incoming order goes in the queue of its collection: behind all orders at the same or a
better level price. -/
theorem addOrder_ok {m : Nat → Option Order} {b : Book} {k : Kind} {o : Order} {sym : Nat}
    (h : KindOK m sym k (b.lv k) (b.best k)) (hk : o.kind = some k) (hsym : o.symbolId = sym)
    (hid : m o.id = none) (hvol : volOf (b.lv k) + o.leaves < W64) :
    KindOK (setO m o.id (some o)) sym k ((b.addOrder k o).1.lv k) ((b.addOrder k o).1.best k) ∧
    volOf ((b.addOrder k o).1.lv k) = volOf (b.lv k) + o.leaves ∧
    ∃ pre post, flatOf (b.lv k) = pre ++ post ∧
      flatOf ((b.addOrder k o).1.lv k) = pre ++ o.id :: post ∧
      (∀ i o', i ∈ pre → m i = some o' → k.better o.key o'.key = false) ∧
      (∀ i o', i ∈ post → m i = some o' → k.better o.key o'.key = true) := by
  have hnm : ∀ l ∈ b.lv k, o.id ∉ l.ids := by
    intro l hl hi
    obtain ⟨o', ho', _⟩ := (h.levels l hl).mem _ hi; simp [hid] at ho'
  have hkeep : ∀ l ∈ b.lv k, LevelOK (setO m o.id (some o)) sym k l := fun l hl =>
    (h.levels l hl).congr fun i hi => (setO_other m (some o) (fun e : i = o.id => hnm l hl (e ▸ hi))).symm
  have hkey : ∀ l ∈ b.lv k, ∀ i o', i ∈ l.ids → m i = some o' → o'.key = l.price := by
    intro l hl i o' hi ho'
    obtain ⟨o'', h1, _, _, h4⟩ := (h.levels l hl).mem i hi
    rw [ho'] at h1; cases h1; exact h4
  unfold Book.addOrder
  cases hf : findLevel (b.lv k) o.key with
  | some l =>
    obtain ⟨xs, ys, he, hp, hx, hy⟩ := findLevel_some h.sorted hf
    have hsp : Split k xs l.price ys := hp ▸ ⟨hx, hy⟩
    have hl : l ∈ b.lv k := by simp [he]
    have hvl : l.total + volOf xs + volOf ys = volOf (b.lv k) := by rw [he]; simp; omega
    have hpush : LevelOK (setO m o.id (some o)) sym k (l.push o) :=
      push_ok (.inr (h.levels l hl)) (fun e => absurd e (h.levels l hl).nonempty) hp hk hsym hid
        (by omega)
    have hpp : (l.push o).price = l.price := rfl
    simp only [setK_same]
    rw [he, replaceLevel_mid hsp hpp]
    refine ⟨⟨sorted_replace (he ▸ h.sorted) hpp, ?_, ?_⟩, ?_, flatOf xs ++ l.ids, flatOf ys, ?_, ?_, ?_, ?_⟩
    · intro l' hl'
      simp only [List.mem_append, List.mem_cons] at hl'
      rcases hl' with hl' | rfl | hl'
      · exact hkeep l' (by simp [he, hl'])
      · exact hpush
      · exact hkeep l' (by simp [he, hl'])
    · rw [h.best, he]; cases xs <;> simp [hpp]
    · have : (l.push o).total = l.total + o.leaves := by
        simp only [Level.push]; exact add64_eq (by omega)
      simp [this]; omega
    · simp
    · simp [Level.push]
    · intro i o' hi ho'
      simp only [List.mem_append] at hi
      rcases hi with hi | hi
      · obtain ⟨l', hl', hi⟩ := mem_flatOf.1 hi
        rw [hkey l' (by simp [he, hl']) i o' hi ho']
        exact better_asymm (hx l' hl')
      · rw [hkey l hl i o' hi ho', hp]; exact better_irrefl _ _
    · intro i o' hi ho'
      obtain ⟨l', hl', hi⟩ := mem_flatOf.1 hi
      rw [hkey l' (by simp [he, hl']) i o' hi ho']
      exact hy l' hl'
  | none =>
    have hne := findLevel_none.1 hf
    have hpush : LevelOK (setO m o.id (some o)) sym k ((Level.new o.key).push o) :=
      push_ok (.inl rfl) (fun _ => rfl) rfl hk hsym hid (by simp [Level.new]; omega)
    obtain ⟨xs, ys, he, hi, hsp⟩ := insertLevel_split (n := (Level.new o.key).push o) h.sorted hne
    have hsp' : Split k xs o.key ys := hsp
    simp only [Book.addLevel, setK_same]
    rw [hi]
    refine ⟨⟨sorted_insert (he ▸ h.sorted) hsp, ?_, ?_⟩, ?_, flatOf xs, flatOf ys, ?_, ?_, ?_, ?_⟩
    · intro l' hl'
      simp only [List.mem_append, List.mem_cons] at hl'
      rcases hl' with hl' | rfl | hl'
      · exact hkeep l' (by simp [he, hl'])
      · exact hpush
      · exact hkeep l' (by simp [he, hl'])
    · rw [h.best, he]
      cases xs with
      | nil =>
        cases ys with
        | nil => simp
        | cons y ys => have := hsp.right y (by simp); simp [this]
      | cons x xs => have := better_asymm (hsp.left x (by simp)); simp [this]
    · have : ((Level.new o.key).push o).total = o.leaves := by
        simp only [Level.push, Level.new]; rw [add64_eq (by omega)]; omega
      rw [he]; simp [this]; omega
    · simp [he]
    · simp [Level.push, Level.new]
    · intro i o' hi ho'
      obtain ⟨l', hl', hi⟩ := mem_flatOf.1 hi
      rw [hkey l' (by simp [he, hl']) i o' hi ho']
      exact better_asymm (hsp'.left l' hl')
    · intro i o' hi ho'
      obtain ⟨l', hl', hi⟩ := mem_flatOf.1 hi
      rw [hkey l' (by simp [he, hl']) i o' hi ho']
      exact hsp'.right l' hl'

/-- `b'` differs from `b` only in collection `k`. -/
structure Book.SameBut (k : Kind) (b b' : Book) : Prop where
  symbol : b'.symbol = b.symbol
  lv : ∀ k', k' ≠ k → b'.lv k' = b.lv k'
  best : ∀ k', k' ≠ k → b'.best k' = b.best k'
  lastBid : b'.lastBid = b.lastBid
  lastAsk : b'.lastAsk = b.lastAsk
  matchBid : b'.matchBid = b.matchBid
  matchAsk : b'.matchAsk = b.matchAsk
  trailBid : b'.trailBid = b.trailBid
  trailAsk : b'.trailAsk = b.trailAsk

theorem addOrder_same (b : Book) (k : Kind) (o : Order) : Book.SameBut k b (b.addOrder k o).1 := by
  unfold Book.addOrder Book.addLevel
  cases findLevel (b.lv k) o.key <;>
    constructor <;> (try rfl) <;> (intro k' hk'; first | exact setK_other _ _ hk' | rfl)

theorem settle_same (b : Book) (k : Kind) (l : Level) : Book.SameBut k b (b.settle k l).1 := by
  unfold Book.settle Book.deleteLevel
  split <;>
    constructor <;> (try rfl) <;> (intro k' hk'; first | exact setK_other _ _ hk' | rfl)

/-! ### Removing and reducing an order -/

theorem settle_ok {m m' : Nat → Option Order} {b : Book} {k : Kind} {sym : Nat} {xs ys : List Level}
    {l l' : Level} (h : KindOK m sym k (b.lv k) (b.best k)) (he : b.lv k = xs ++ l :: ys)
    (hp : l'.price = l.price) (hz : l'.total = 0 ↔ l'.ids = [])
    (hl' : l'.ids ≠ [] → LevelOK m' sym k l')
    (hx : ∀ i ∈ flatOf xs, m i = m' i) (hy : ∀ i ∈ flatOf ys, m i = m' i) :
    KindOK m' sym k ((b.settle k l').1.lv k) ((b.settle k l').1.best k) ∧
    volOf ((b.settle k l').1.lv k) + l.total = volOf (b.lv k) + l'.total ∧
    flatOf ((b.settle k l').1.lv k) = flatOf xs ++ l'.ids ++ flatOf ys := by
  have hsp : Split k xs l.price ys := sorted_mid (he ▸ h.sorted)
  have hkx : ∀ x ∈ xs, LevelOK m' sym k x := fun x hx' =>
    (h.levels x (by simp [he, hx'])).congr fun i hi => hx i (mem_flatOf.2 ⟨x, hx', hi⟩)
  have hky : ∀ y ∈ ys, LevelOK m' sym k y := fun x hx' =>
    (h.levels x (by simp [he, hx'])).congr fun i hi => hy i (mem_flatOf.2 ⟨x, hx', hi⟩)
  unfold Book.settle
  by_cases h0 : l'.total = 0
  · simp only [h0, if_true, Book.deleteLevel, setK_same]
    rw [hp, he, eraseLevel_mid hsp, nextLevel_mid hsp]
    refine ⟨⟨sorted_remove (he ▸ h.sorted), ?_, ?_⟩, ?_, ?_⟩
    · intro l hl
      rcases List.mem_append.1 hl with hl | hl
      · exact hkx l hl
      · exact hky l hl
    · rw [h.best, he]
      cases xs with
      | nil => simp
      | cons x xs =>
        have := hsp.left_ne x (by simp)
        simp [this]
    · simp; omega
    · simp [hz.1 h0]
  · simp only [h0, if_false, setK_same]
    rw [he, replaceLevel_mid hsp hp]
    refine ⟨⟨sorted_replace (he ▸ h.sorted) hp, ?_, ?_⟩, ?_, ?_⟩
    · intro l hl
      simp only [List.mem_append, List.mem_cons] at hl
      rcases hl with hl | rfl | hl
      · exact hkx l hl
      · exact hl' (fun e => h0 (hz.2 e))
      · exact hky l hl
    · rw [h.best, he]; cases xs <;> simp [hp]
    · simp; omega
    · simp

theorem erase_mid {xs ids ys : List Nat} {i : Nat} (hx : i ∉ xs) (hi : i ∈ ids) :
    (xs ++ (ids ++ ys)).erase i = xs ++ (ids.erase i ++ ys) := by
  rw [List.erase_append_right _ hx, List.erase_append_left _ hi]

theorem deleteOrder_ok {m : Nat → Option Order} {b : Book} {k : Kind} {o : Order} {sym : Nat}
    (h : KindOK m sym k (b.lv k) (b.best k)) (hm : OrdersOK m)
    (ho : m o.id = some o) (hi : o.id ∈ flatOf (b.lv k)) (hvol : volOf (b.lv k) < W64) :
    ∃ b' u, b.deleteOrder k o = .ok (b', u) ∧ Book.SameBut k b b' ∧
    KindOK (setO m o.id none) sym k (b'.lv k) (b'.best k) ∧
    volOf (b'.lv k) + o.leaves = volOf (b.lv k) ∧
    flatOf (b'.lv k) = (flatOf (b.lv k)).erase o.id := by
  obtain ⟨xs, l, ys, he, hi', hp, hsp, hl⟩ := h.level_of hi ho
  have hnm := notMem_other (he ▸ h) ho hp
  have hvl : l.total ≤ volOf (b.lv k) := by rw [he]; simp; omega
  have hfind : findLevel (b.lv k) o.key = some l := by rw [he, ← hp]; exact findLevel_mid (hp ▸ hsp)
  unfold Book.deleteOrder
  rw [hfind]
  simp only [hi', if_true]
  have e1 := sumOver_erase (f := Order.leaves) hi' ho
  have e2 := sumOver_erase (f := Order.hiddenQty) hi' ho
  have e3 := sumOver_erase (f := Order.visibleQty) hi' ho
  have b2 : l.hidden ≤ l.total := by rw [hl.total, hl.hidden]; exact sumOver_le hidden_le
  have b3 : l.visible ≤ l.total := by rw [hl.total, hl.visible]; exact sumOver_le visible_le
  have t1 := hl.total
  have t2 := hl.hidden
  have t3 := hl.visible
  have s1 : sub64 l.total o.leaves = l.total - o.leaves := sub64_eq (by omega) (by omega)
  have s2 : sub64 l.hidden o.hiddenQty = l.hidden - o.hiddenQty := sub64_eq (by omega) (by omega)
  have s3 : sub64 l.visible o.visibleQty = l.visible - o.visibleQty := sub64_eq (by omega) (by omega)
  have hnd : o.id ∉ l.ids.erase o.id := fun hc => by
    have := hl.nodup; rw [List.Nodup.mem_erase_iff this] at hc; exact hc.1 rfl
  have hsum : ∀ f, sumOver (setO m o.id none) f (l.ids.erase o.id) = sumOver m f (l.ids.erase o.id) :=
    fun f => sumOver_setO_notMem hnd
  have hrest : ∀ i ∈ l.ids.erase o.id, ∃ o', m i = some o' ∧ 0 < o'.leaves := by
    intro i hi
    obtain ⟨o', ho', _⟩ := hl.mem i (List.mem_of_mem_erase hi)
    exact ⟨o', ho', (hm i o' ho').2.leaves⟩
  have hz : (l.remove o).total = 0 ↔ (l.remove o).ids = [] := by
    simp only [Level.remove]; rw [s1]
    constructor
    · intro h0
      refine Decidable.byContradiction fun hne => ?_
      have := sumOver_pos_of_mem hne hrest
      omega
    · intro h0; rw [h0] at e1; simp at e1; omega
  obtain ⟨r1, r2, r3⟩ := settle_ok (m' := setO m o.id none) (l' := l.remove o) h he rfl hz
    (fun hne => by
      refine ⟨hne, hl.nodup.erase _, ?_, ?_, ?_, ?_, ?_⟩
      · intro i hi
        have hi : i ∈ l.ids.erase o.id := hi
        obtain ⟨o', ho', hh⟩ := hl.mem i (List.mem_of_mem_erase hi)
        refine ⟨o', ?_, hh⟩
        rw [setO_other m none (fun e : i = o.id => hnd (e ▸ hi))]; exact ho'
      · simp only [Level.remove]; rw [hsum, s1]; omega
      · simp only [Level.remove]; rw [hsum, s2]; omega
      · simp only [Level.remove]; rw [hsum, s3]; omega
      · simp only [Level.remove]; rw [List.length_erase, hl.count]; simp [hi'])
    (fun i hi => (setO_other m none (fun e : i = o.id => hnm.1 (e ▸ hi))).symm)
    (fun i hi => (setO_other m none (fun e : i = o.id => hnm.2 (e ▸ hi))).symm)
  refine ⟨(b.settle k (l.remove o)).1, (b.settle k (l.remove o)).2, rfl, settle_same _ _ _, r1, ?_, ?_⟩
  · have : (l.remove o).total = l.total - o.leaves := s1
    omega
  · rw [r3, he]
    simp only [flatOf_append, flatOf_cons, Level.remove]
    rw [erase_mid hnm.1 hi', List.append_assoc]

theorem reduceOrder_ok {m : Nat → Option Order} {b : Book} {k : Kind} {o o' : Order} {sym q : Nat}
    (h : KindOK m sym k (b.lv k) (b.best k)) (hm : OrdersOK m)
    (ho : m o.id = some o) (hi : o.id ∈ flatOf (b.lv k)) (hvol : volOf (b.lv k) < W64)
    (hid : o'.id = o.id) (hkey : o'.key = o.key) (hkd : o'.kind = o.kind) (hsy : o'.symbolId = o.symbolId)
    (hq : q ≤ o.leaves) (hlv : o'.leaves = o.leaves - q)
    (hmv : o'.maxVisible = o.maxVisible) :
    ∃ b' u, b.reduceOrder k o' q (o.hiddenQty - o'.hiddenQty) (o.visibleQty - o'.visibleQty) = .ok (b', u) ∧
    Book.SameBut k b b' ∧
    KindOK (setO m o.id (if o'.leaves = 0 then none else some o')) sym k (b'.lv k) (b'.best k) ∧
    volOf (b'.lv k) + q = volOf (b.lv k) ∧
    flatOf (b'.lv k) = if o'.leaves = 0 then (flatOf (b.lv k)).erase o.id else flatOf (b.lv k) := by
  obtain ⟨xs, l, ys, he, hi', hp, hsp, hl⟩ := h.level_of hi ho
  have hnm := notMem_other (he ▸ h) ho hp
  have hvl : l.total ≤ volOf (b.lv k) := by rw [he]; simp; omega
  have hfind : findLevel (b.lv k) o'.key = some l := by
    rw [hkey, he, ← hp]; exact findLevel_mid (hp ▸ hsp)
  unfold Book.reduceOrder
  rw [hfind]
  have hi'' : o'.id ∈ l.ids := hid ▸ hi'
  simp only [hi'', if_true]
  have e1 := sumOver_erase (f := Order.leaves) hi' ho
  have e2 := sumOver_erase (f := Order.hiddenQty) hi' ho
  have e3 := sumOver_erase (f := Order.visibleQty) hi' ho
  have b2 : l.hidden ≤ l.total := by rw [hl.total, hl.hidden]; exact sumOver_le hidden_le
  have b3 : l.visible ≤ l.total := by rw [hl.total, hl.visible]; exact sumOver_le visible_le
  have t1 := hl.total
  have t2 := hl.hidden
  have t3 := hl.visible
  have g2 : o'.hiddenQty ≤ o.hiddenQty := by unfold Order.hiddenQty; rw [hmv, hlv]; split <;> split <;> omega
  have g3 : o'.visibleQty ≤ o.visibleQty := by unfold Order.visibleQty; rw [hmv, hlv]; omega
  have s1 : sub64 l.total q = l.total - q := sub64_eq (by omega) (by omega)
  have s2 : sub64 l.hidden (o.hiddenQty - o'.hiddenQty) = l.hidden - (o.hiddenQty - o'.hiddenQty) :=
    sub64_eq (by omega) (by omega)
  have s3 : sub64 l.visible (o.visibleQty - o'.visibleQty) = l.visible - (o.visibleQty - o'.visibleQty) :=
    sub64_eq (by omega) (by omega)
  have hnd : o.id ∉ l.ids.erase o.id := fun hc => by
    have := hl.nodup; rw [List.Nodup.mem_erase_iff this] at hc; exact hc.1 rfl
  have hrest : ∀ i ∈ l.ids.erase o.id, ∃ o', m i = some o' ∧ 0 < o'.leaves := by
    intro i hi
    obtain ⟨o', ho', _⟩ := hl.mem i (List.mem_of_mem_erase hi)
    exact ⟨o', ho', (hm i o' ho').2.leaves⟩
  have hle := hidden_add_visible o'
  generalize hm' : setO m o.id (if o'.leaves = 0 then none else some o') = m'
  have hother : ∀ i, i ≠ o.id → m' i = m i := fun i hne => by rw [← hm']; exact setO_other _ _ hne
  have hsum : ∀ f, sumOver m' f (l.ids.erase o.id) = sumOver m f (l.ids.erase o.id) :=
    fun f => sumOver_congr fun i hi => hother i (fun e : i = o.id => hnd (e ▸ hi))
  by_cases h0 : o'.leaves = 0
  · have hq' : q = o.leaves := by omega
    have hz : (l.reduce o' q (o.hiddenQty - o'.hiddenQty) (o.visibleQty - o'.visibleQty)).total = 0 ↔
        (l.reduce o' q (o.hiddenQty - o'.hiddenQty) (o.visibleQty - o'.visibleQty)).ids = [] := by
      simp only [Level.reduce, h0, if_true, hid]; rw [s1]
      constructor
      · intro h0
        refine Decidable.byContradiction fun hne => ?_
        have := sumOver_pos_of_mem hne hrest
        omega
      · intro h0; rw [h0] at e1; simp at e1; omega
    obtain ⟨r1, r2, r3⟩ := settle_ok (m' := m')
      (l' := l.reduce o' q (o.hiddenQty - o'.hiddenQty) (o.visibleQty - o'.visibleQty)) h he rfl hz
      (fun hne => by
        refine ⟨hne, ?_, ?_, ?_, ?_, ?_, ?_⟩ <;> simp only [Level.reduce, h0, if_true, hid]
        · exact hl.nodup.erase _
        · intro i hi
          obtain ⟨o', ho', hh⟩ := hl.mem i (List.mem_of_mem_erase hi)
          exact ⟨o', by rw [hother i (fun e : i = o.id => hnd (e ▸ hi))]; exact ho', hh⟩
        · rw [hsum, s1]; omega
        · rw [hsum, s2]; omega
        · rw [hsum, s3]; omega
        · rw [List.length_erase, hl.count]; simp [hi'])
      (fun i hi => (hother i (fun e : i = o.id => hnm.1 (e ▸ hi))).symm)
      (fun i hi => (hother i (fun e : i = o.id => hnm.2 (e ▸ hi))).symm)
    refine ⟨(b.settle k (l.reduce o' q (o.hiddenQty - o'.hiddenQty) (o.visibleQty - o'.visibleQty))).1,
      (b.settle k (l.reduce o' q (o.hiddenQty - o'.hiddenQty) (o.visibleQty - o'.visibleQty))).2, rfl, settle_same _ _ _, r1, ?_, ?_⟩
    · have : (l.reduce o' q (o.hiddenQty - o'.hiddenQty) (o.visibleQty - o'.visibleQty)).total =
        l.total - q := s1
      omega
    · rw [r3, he]
      simp only [flatOf_append, flatOf_cons, Level.reduce, h0, if_true, hid]
      rw [erase_mid hnm.1 hi', List.append_assoc]
  · have ho' : m' o.id = some o' := by rw [← hm']; simp [h0]
    have f1 := sumOver_erase (f := Order.leaves) hi' ho'
    have f2 := sumOver_erase (f := Order.hiddenQty) hi' ho'
    have f3 := sumOver_erase (f := Order.visibleQty) hi' ho'
    rw [hsum] at f1 f2 f3
    have hz : (l.reduce o' q (o.hiddenQty - o'.hiddenQty) (o.visibleQty - o'.visibleQty)).total = 0 ↔
        (l.reduce o' q (o.hiddenQty - o'.hiddenQty) (o.visibleQty - o'.visibleQty)).ids = [] := by
      simp only [Level.reduce, h0, if_false]; rw [s1]
      exact ⟨fun hz => by omega, fun hz => absurd hz hl.nonempty⟩
    obtain ⟨r1, r2, r3⟩ := settle_ok (m' := m')
      (l' := l.reduce o' q (o.hiddenQty - o'.hiddenQty) (o.visibleQty - o'.visibleQty)) h he rfl hz
      (fun hne => by
        refine ⟨hne, ?_, ?_, ?_, ?_, ?_, ?_⟩ <;> simp only [Level.reduce, h0, if_false]
        · exact hl.nodup
        · intro i hi
          obtain ⟨oi, hoi, hh⟩ := hl.mem i hi
          by_cases e : i = o.id
          · subst e
            rw [ho] at hoi; cases hoi
            exact ⟨o', ho', by rw [hsy]; exact hh.1, by rw [hkd]; exact hh.2.1, by rw [hkey]; exact hh.2.2⟩
          · exact ⟨oi, by rw [hother i e]; exact hoi, hh⟩
        · rw [f1, s1]; omega
        · rw [f2, s2]; omega
        · rw [f3, s3]; omega
        · exact hl.count)
      (fun i hi => (hother i (fun e : i = o.id => hnm.1 (e ▸ hi))).symm)
      (fun i hi => (hother i (fun e : i = o.id => hnm.2 (e ▸ hi))).symm)
    refine ⟨(b.settle k (l.reduce o' q (o.hiddenQty - o'.hiddenQty) (o.visibleQty - o'.visibleQty))).1,
      (b.settle k (l.reduce o' q (o.hiddenQty - o'.hiddenQty) (o.visibleQty - o'.visibleQty))).2, rfl, settle_same _ _ _, r1, ?_, ?_⟩
    · have : (l.reduce o' q (o.hiddenQty - o'.hiddenQty) (o.visibleQty - o'.visibleQty)).total =
        l.total - q := s1
      omega
    · rw [r3, he]
      simp [Level.reduce, h0]

end CppTrader
