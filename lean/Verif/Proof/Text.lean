import Verif.Told
/-
Reading printed callbacks back.
-/

namespace CppTrader
namespace Text

theorem cut {c : Char} : ∀ {a b x y : List Char}, c ∉ a → c ∉ b → a ++ c :: x = b ++ c :: y → a = b ∧ x = y
  | [], [], _, _, _, _, h => ⟨rfl, by simpa using h⟩
  | [], d :: b, _, _, _, hb, h => by
    rw [List.nil_append, List.cons_append] at h
    injection h with h1 _
    exact absurd (by rw [h1]; exact List.mem_cons_self) hb
  | d :: a, [], _, _, ha, _, h => by
    rw [List.nil_append, List.cons_append] at h
    injection h with h1 _
    exact absurd (by rw [h1]; exact List.mem_cons_self) ha
  | d :: a, e :: b, _, _, ha, hb, h => by
    rw [List.cons_append, List.cons_append] at h
    injection h with h1 h2
    obtain ⟨h3, h4⟩ := cut (fun m => ha (List.mem_cons_of_mem _ m)) (fun m => hb (List.mem_cons_of_mem _ m)) h2
    exact ⟨by rw [h1, h3], h4⟩

theorem num_digit {n : Nat} {c : Char} (h : c ∈ num n) : c.isDigit = true := Nat.isDigit_of_mem_toDigits (by decide) (by decide) h

theorem num_inj {a b : Nat} (h : num a = num b) : a = b := by
  have := congrArg (fun l => Nat.ofDigitChars 10 l 0) h
  simpa [num, Nat.ofDigitChars_ten_toDigits] using this

theorem num_free {c : Char} (hc : c.isDigit = false) (n : Nat) : c ∉ num n := by
  intro h
  rw [num_digit h] at hc
  cases hc

theorem num_cut {c : Char} (hc : c.isDigit = false) {a b : Nat} {x y : List Char} (h : num a ++ c :: x = num b ++ c :: y) :
    a = b ∧ x = y := by
  obtain ⟨h1, h2⟩ := cut (num_free hc a) (num_free hc b) h
  exact ⟨num_inj h1, h2⟩

theorem int_free {c : Char} (hc : c.isDigit = false) (hm : c ≠ '-') (n : Int) : c ∉ int n := by
  unfold int
  by_cases h : n < 0
  · rw [if_pos h]
    intro h'
    rcases List.mem_cons.1 h' with h' | h'
    · exact hm h'
    · exact num_free hc _ h'
  · rw [if_neg h]; exact num_free hc _

theorem num_minus (n : Nat) (l : List Char) : num n ≠ '-' :: l := by
  intro h
  exact num_free (c := '-') (by decide) n (by rw [h]; exact List.mem_cons_self)

theorem int_inj {a b : Int} (h : int a = int b) : a = b := by
  unfold int at h
  by_cases ha : a < 0 <;> by_cases hb : b < 0
  · rw [if_pos ha, if_pos hb] at h
    injection h with _ h
    have := num_inj h
    omega
  · rw [if_pos ha, if_neg hb] at h; exact absurd h.symm (num_minus _ _)
  · rw [if_neg ha, if_pos hb] at h; exact absurd h (num_minus _ _)
  · rw [if_neg ha, if_neg hb] at h
    have := num_inj h
    omega

theorem type_free (t : OrderType) : ';' ∉ type t := by cases t <;> decide
theorem side_free (t : Side) : ';' ∉ side t := by cases t <;> decide

theorem type_inj {a b : OrderType} (h : type a = type b) : a = b := by revert h; cases a <;> cases b <;> decide
theorem side_inj {a b : Side} (h : side a = side b) : a = b := by revert h; cases a <;> cases b <;> decide
theorem tif_inj {a b : TIF} (h : tif a = tif b) : a = b := by revert h; cases a <;> cases b <;> decide
theorem tif_len (a b : TIF) : (tif a).length = (tif b).length := by cases a <;> cases b <;> rfl

theorem error_inj {a b : ErrorCode} (h : error a = error b) : a = b := by revert h; cases a <;> cases b <;> decide
theorem update_inj {a b : UpdType} (h : update a = update b) : a = b := by revert h; cases a <;> cases b <;> decide

theorem lit_cut (l : String) {x y : List Char} (h : l.toList ++ x = l.toList ++ y) : x = y := List.append_cancel_left h

/-- Cutting after a label. -/
theorem num_lit (l : String) {c : Char} {t : List Char} (hl : l.toList = c :: t) (hc : c.isDigit = false) {a b : Nat} {x y : List Char}
    (h : num a ++ (l.toList ++ x) = num b ++ (l.toList ++ y)) : a = b ∧ x = y := by
  rw [hl, List.cons_append, List.cons_append] at h
  obtain ⟨h1, h2⟩ := num_cut hc h
  exact ⟨h1, List.append_cancel_left h2⟩

theorem word_lit (l : String) {c : Char} {t : List Char} (hl : l.toList = c :: t) {a b x y : List Char} (ha : c ∉ a) (hb : c ∉ b)
    (h : a ++ (l.toList ++ x) = b ++ (l.toList ++ y)) : a = b ∧ x = y := by
  rw [hl, List.cons_append, List.cons_append] at h
  obtain ⟨h1, h2⟩ := cut ha hb h
  exact ⟨h1, List.append_cancel_left h2⟩

/-- The last part of the text of an order. -/
theorem tail_cut {a b : Order} {x y : List Char}
    (h : ((if a.isHidden || a.isIceberg then "; MaxVisibleQuantity=".toList ++ num a.maxVisible else [])
        ++ ((if a.isSlippage then "; Slippage=".toList ++ num a.slippage else []) ++ ")".toList)) ++ x =
      ((if b.isHidden || b.isIceberg then "; MaxVisibleQuantity=".toList ++ num b.maxVisible else [])
        ++ ((if b.isSlippage then "; Slippage=".toList ++ num b.slippage else []) ++ ")".toList)) ++ y) :
    min a.maxVisible MAX64 = min b.maxVisible MAX64 ∧ min a.slippage MAX64 = min b.slippage MAX64 ∧ x = y := by
  have vis : ∀ o : Order, (o.isHidden || o.isIceberg) = decide (o.maxVisible < MAX64) := by
    intro o
    unfold Order.isHidden Order.isIceberg
    by_cases h : o.maxVisible = 0 <;> simp [h]
  rw [vis a, vis b] at h
  have slip : ∀ (o : Order), o.isSlippage = decide (o.slippage < MAX64) := fun _ => rfl
  rw [slip a, slip b] at h
  -- the slippage part
  have last : ∀ {x y : List Char}, ((if decide (a.slippage < MAX64) then "; Slippage=".toList ++ num a.slippage else []) ++ ")".toList) ++ x =
      ((if decide (b.slippage < MAX64) then "; Slippage=".toList ++ num b.slippage else []) ++ ")".toList) ++ y →
      min a.slippage MAX64 = min b.slippage MAX64 ∧ x = y := by
    intro x y h
    by_cases ha : a.slippage < MAX64 <;> by_cases hb : b.slippage < MAX64
    · rw [if_pos (decide_eq_true ha), if_pos (decide_eq_true hb)] at h
      simp only [List.append_assoc] at h
      have h := lit_cut "; Slippage=" h
      obtain ⟨h1, h2⟩ := num_lit ")" (c := ')') rfl (by decide) h
      exact ⟨by rw [h1], h2⟩
    · rw [if_pos (decide_eq_true ha), if_neg (by simpa using hb)] at h
      simp at h
    · rw [if_neg (by simpa using ha), if_pos (decide_eq_true hb)] at h
      simp at h
    · rw [if_neg (by simpa using ha), if_neg (by simpa using hb)] at h
      exact ⟨by omega, by simpa using h⟩
  by_cases ha : a.maxVisible < MAX64 <;> by_cases hb : b.maxVisible < MAX64
  · rw [if_pos (decide_eq_true ha), if_pos (decide_eq_true hb)] at h
    simp only [List.append_assoc] at h
    have h := lit_cut "; MaxVisibleQuantity=" h
    have fin : ∀ (o : Order) (x : List Char), ∃ c t, ((if decide (o.slippage < MAX64) then "; Slippage=".toList ++ num o.slippage else []) ++ (")".toList ++ x)) = c :: t ∧
        c.isDigit = false := by
      intro o x
      by_cases h : o.slippage < MAX64
      · rw [if_pos (decide_eq_true h)]; exact ⟨';', _, rfl, by decide⟩
      · rw [if_neg (by simpa using h)]; exact ⟨')', _, rfl, by decide⟩
    have dig : ∀ {n m : Nat} {c d : Char} {s t : List Char}, c.isDigit = false → d.isDigit = false → num n ++ c :: s = num m ++ d :: t →
        n = m ∧ c :: s = d :: t := by
      intro n m c d s t hc hd h
      have e1 := congrArg (List.takeWhile Char.isDigit) h
      have tw : ∀ (n : Nat) (c : Char) (s : List Char), c.isDigit = false → (num n ++ c :: s).takeWhile Char.isDigit = num n := by
        intro n c s hc
        rw [List.takeWhile_append_of_pos (fun x hx => num_digit hx), List.takeWhile_cons_of_neg (by simp [hc]), List.append_nil]
      rw [tw _ _ _ hc, tw _ _ _ hd] at e1
      rw [e1] at h
      exact ⟨num_inj e1, List.append_cancel_left h⟩
    obtain ⟨c, s, e1, e2⟩ := fin a x
    obtain ⟨d, t, e3, e4⟩ := fin b y
    rw [e1, e3] at h
    obtain ⟨h1, h2⟩ := dig e2 e4 h
    rw [← e1, ← e3, ← List.append_assoc, ← List.append_assoc] at h2
    obtain ⟨h3, h4⟩ := last h2
    exact ⟨by rw [h1], h3, h4⟩
  · rw [if_pos (show decide (a.maxVisible < MAX64) = true from decide_eq_true ha),
      if_neg (show ¬ decide (b.maxVisible < MAX64) = true by simpa using hb)] at h
    have h := congrArg (fun l : List Char => (l[0]?, l[2]?)) h
    by_cases hs : b.slippage < MAX64
    · rw [if_pos (show decide (b.slippage < MAX64) = true from decide_eq_true hs)] at h
      exact absurd (show (some ';', some 'M') = (some ';', some 'S') from h) (by decide)
    · rw [if_neg (show ¬ decide (b.slippage < MAX64) = true by simpa using hs)] at h
      exact absurd (show some ';' = some ')' from congrArg Prod.fst h) (by decide)
  · rw [if_neg (show ¬ decide (a.maxVisible < MAX64) = true by simpa using ha),
      if_pos (show decide (b.maxVisible < MAX64) = true from decide_eq_true hb)] at h
    have h := congrArg (fun l : List Char => (l[0]?, l[2]?)) h
    by_cases hs : a.slippage < MAX64
    · rw [if_pos (show decide (a.slippage < MAX64) = true from decide_eq_true hs)] at h
      exact absurd (show (some ';', some 'S') = (some ';', some 'M') from h) (by decide)
    · rw [if_neg (show ¬ decide (a.slippage < MAX64) = true by simpa using hs)] at h
      exact absurd (show some ')' = some ';' from congrArg Prod.fst h) (by decide)
  · rw [if_neg (show ¬ decide (a.maxVisible < MAX64) = true by simpa using ha),
      if_neg (show ¬ decide (b.maxVisible < MAX64) = true by simpa using hb)] at h
    rw [List.nil_append, List.nil_append] at h
    obtain ⟨h1, h2⟩ := last h
    exact ⟨by omega, h1, h2⟩

theorem order_eq (o : Order) : order o = "Order(Id=".toList ++ (num o.id
    ++ ("; SymbolId=".toList ++ (num o.symbolId
    ++ ("; Type=".toList ++ (type o.type
    ++ ("; Side=".toList ++ (side o.side
    ++ ("; Price=".toList ++ (num o.price
    ++ ("; StopPrice=".toList ++ (num o.stopPrice
    ++ ("; Quantity=".toList ++ (num o.quantity
    ++ ("; ExecutedQuantity=".toList ++ (num o.executed
    ++ ("; LeavesQuantity=".toList ++ (num o.leaves
    ++ ("; ".toList ++ (tif o.tif
    ++ ((if o.isTrailingStop || o.isTrailingStopLimit then
          "; TrailingDistance=".toList ++ (int o.trailDist ++ ("; TrailingStep=".toList ++ int o.trailStep)) else [])
    ++ ((if o.isHidden || o.isIceberg then "; MaxVisibleQuantity=".toList ++ num o.maxVisible else [])
    ++ ((if o.isSlippage then "; Slippage=".toList ++ num o.slippage else [])
    ++ ")".toList)))))))))))))))))))))) := rfl

/-- The part after the trailing step starts with a semicolon or a bracket. -/
theorem rest_head (o : Order) (x : List Char) : ∃ c t, ((if o.isHidden || o.isIceberg then "; MaxVisibleQuantity=".toList ++ num o.maxVisible else [])
        ++ ((if o.isSlippage then "; Slippage=".toList ++ num o.slippage else []) ++ ")".toList)) ++ x = c :: t ∧ (c = ';' ∨ c = ')') := by
  by_cases h : (o.isHidden || o.isIceberg) = true
  · rw [if_pos h]; exact ⟨';', _, rfl, .inl rfl⟩
  · rw [if_neg h]
    by_cases h' : o.isSlippage = true
    · rw [if_pos h']; exact ⟨';', _, rfl, .inl rfl⟩
    · rw [if_neg h']; exact ⟨')', _, rfl, .inr rfl⟩

theorem int_end {a b : Int} {c d : Char} {s t : List Char} (hc : c = ';' ∨ c = ')') (hd : d = ';' ∨ d = ')')
    (h : int a ++ c :: s = int b ++ d :: t) : a = b ∧ c :: s = d :: t := by
  let P : Char → Bool := fun x => x.isDigit || x == '-'
  have tw : ∀ (n : Int) (c : Char) (s : List Char), (c = ';' ∨ c = ')') → (int n ++ c :: s).takeWhile P = int n := by
    intro n c s hc
    rw [List.takeWhile_append_of_pos, List.takeWhile_cons_of_neg, List.append_nil]
    · rcases hc with rfl | rfl <;> decide
    · intro x hx
      unfold int at hx
      by_cases hn : n < 0
      · rw [if_pos hn] at hx
        rcases List.mem_cons.1 hx with rfl | hx
        · decide
        · simp [P, num_digit hx]
      · rw [if_neg hn] at hx
        simp [P, num_digit hx]
  have e1 := congrArg (List.takeWhile P) h
  rw [tw _ _ _ hc, tw _ _ _ hd] at e1
  rw [e1] at h
  exact ⟨int_inj e1, List.append_cancel_left h⟩

theorem order_cut {a b : Order} {x y : List Char} (h : order a ++ x = order b ++ y) : a.told = b.told ∧ x = y := by
  rw [order_eq, order_eq] at h
  simp only [List.append_assoc] at h
  have h := lit_cut _ h
  obtain ⟨h1, h⟩ := num_lit "; SymbolId=" (c := ';') rfl (by decide) h
  obtain ⟨h2, h⟩ := num_lit "; Type=" (c := ';') rfl (by decide) h
  obtain ⟨h3, h⟩ := word_lit "; Side=" (c := ';') rfl (type_free _) (type_free _) h
  obtain ⟨h4, h⟩ := word_lit "; Price=" (c := ';') rfl (side_free _) (side_free _) h
  obtain ⟨h5, h⟩ := num_lit "; StopPrice=" (c := ';') rfl (by decide) h
  obtain ⟨h6, h⟩ := num_lit "; Quantity=" (c := ';') rfl (by decide) h
  obtain ⟨h7, h⟩ := num_lit "; ExecutedQuantity=" (c := ';') rfl (by decide) h
  obtain ⟨h8, h⟩ := num_lit "; LeavesQuantity=" (c := ';') rfl (by decide) h
  obtain ⟨h9, h⟩ := num_lit "; " (c := ';') rfl (by decide) h
  have h10 := (List.append_inj h (tif_len _ _)).1
  have h := (List.append_inj h (tif_len _ _)).2
  have h3 := type_inj h3
  have h4 := side_inj h4
  have h10 := tif_inj h10
  have ht : (a.isTrailingStop || a.isTrailingStopLimit) = (b.isTrailingStop || b.isTrailingStopLimit) := by
    unfold Order.isTrailingStop Order.isTrailingStopLimit; rw [h3]
  have hP : ∀ o : Order, (o.isTrailingStop || o.isTrailingStopLimit) = true ↔ (o.type = .trailingStop ∨ o.type = .trailingStopLimit) := by
    intro o; simp [Order.isTrailingStop, Order.isTrailingStopLimit]
  have fin : min a.maxVisible MAX64 = min b.maxVisible MAX64 ∧ min a.slippage MAX64 = min b.slippage MAX64 ∧ x = y ∧
      ((a.type = .trailingStop ∨ a.type = .trailingStopLimit) → a.trailDist = b.trailDist ∧ a.trailStep = b.trailStep) := by
    by_cases hT : (a.isTrailingStop || a.isTrailingStopLimit) = true
    · have hT' := hT
      rw [ht] at hT'
      rw [if_pos hT, if_pos hT'] at h
      simp only [List.append_assoc] at h
      have h := lit_cut _ h
      obtain ⟨k1, h⟩ := word_lit "; TrailingStep=" (c := ';') rfl (int_free (by decide) (by decide) _) (int_free (by decide) (by decide) _) h
      obtain ⟨c, s, e1, e2⟩ := rest_head a x
      obtain ⟨d, t, e3, e4⟩ := rest_head b y
      simp only [List.append_assoc] at e1 e3
      rw [e1, e3] at h
      obtain ⟨k2, h⟩ := int_end e2 e4 h
      rw [← e1, ← e3] at h
      obtain ⟨r1, r2, r3⟩ := tail_cut (a := a) (b := b) (x := x) (y := y) (by simpa only [List.append_assoc] using h)
      exact ⟨r1, r2, r3, fun _ => ⟨int_inj k1, k2⟩⟩
    · have hT' := hT
      rw [ht] at hT'
      rw [if_neg hT, if_neg hT', List.nil_append, List.nil_append] at h
      obtain ⟨r1, r2, r3⟩ := tail_cut (a := a) (b := b) (x := x) (y := y) (by simpa only [List.append_assoc] using h)
      exact ⟨r1, r2, r3, fun hc => absurd ((hP a).2 hc) hT⟩
  obtain ⟨f1, f2, f3, f4⟩ := fin
  refine ⟨?_, f3⟩
  unfold Order.told
  rw [h1, h2, h3, h4, h5, h6, h7, h8, h9, h10, f1, f2]
  by_cases hT : b.type = .trailingStop ∨ b.type = .trailingStopLimit
  · obtain ⟨g1, g2⟩ := f4 (by rw [h3]; exact hT)
    rw [g1, g2]
  · rw [if_neg hT, if_neg hT, if_neg hT, if_neg hT]

/-- Orders that tell the same have the same text. -/
theorem order_told (o : Order) : order o.told = order o := by
  have hP : ∀ o : Order, (o.isTrailingStop || o.isTrailingStopLimit) = decide (o.type = .trailingStop ∨ o.type = .trailingStopLimit) := by
    intro o; simp [Order.isTrailingStop, Order.isTrailingStopLimit]
  have vis : ∀ o : Order, (o.isHidden || o.isIceberg) = decide (o.maxVisible < MAX64) := by
    intro o
    unfold Order.isHidden Order.isIceberg
    by_cases h : o.maxVisible = 0 <;> simp [h]
  have slip : ∀ (o : Order), o.isSlippage = decide (o.slippage < MAX64) := fun _ => rfl
  have hv : (if o.told.isHidden || o.told.isIceberg then "; MaxVisibleQuantity=".toList ++ num o.told.maxVisible else []) =
      (if o.isHidden || o.isIceberg then "; MaxVisibleQuantity=".toList ++ num o.maxVisible else []) := by
    have e : o.told.maxVisible = min o.maxVisible MAX64 := rfl
    rw [vis, vis, e]
    by_cases h : o.maxVisible < MAX64
    · rw [Nat.min_eq_left (by omega)]
    · rw [if_neg (by simp; omega), if_neg (by simpa using h)]
  have hs : (if o.told.isSlippage then "; Slippage=".toList ++ num o.told.slippage else []) =
      (if o.isSlippage then "; Slippage=".toList ++ num o.slippage else []) := by
    have e : o.told.slippage = min o.slippage MAX64 := rfl
    rw [slip, slip, e]
    by_cases h : o.slippage < MAX64
    · rw [Nat.min_eq_left (by omega)]
    · rw [if_neg (by simp; omega), if_neg (by simpa using h)]
  have ht : (if o.told.isTrailingStop || o.told.isTrailingStopLimit then
        "; TrailingDistance=".toList ++ (int o.told.trailDist ++ ("; TrailingStep=".toList ++ int o.told.trailStep)) else []) =
      (if o.isTrailingStop || o.isTrailingStopLimit then
        "; TrailingDistance=".toList ++ (int o.trailDist ++ ("; TrailingStep=".toList ++ int o.trailStep)) else []) := by
    have e : o.told.type = o.type := rfl
    rw [hP, hP, e]
    by_cases hT : o.type = .trailingStop ∨ o.type = .trailingStopLimit
    · have e1 : o.told.trailDist = o.trailDist := if_pos hT
      have e2 : o.told.trailStep = o.trailStep := if_pos hT
      rw [e1, e2]
    · rw [if_neg (by simpa using hT), if_neg (by simpa using hT)]
  rw [order_eq, order_eq, hv, hs, ht]
  rfl

theorem level_cut {a b : LevelInfo} {x y : List Char} (h : level a ++ x = level b ++ y) : a = b ∧ x = y := by
  unfold level at h
  simp only [List.append_assoc] at h
  have h := lit_cut _ h
  have len : ∀ c d : Bool, (if c then "BID".toList else "ASK".toList).length = (if d then "BID".toList else "ASK".toList).length := by decide
  have hb := (List.append_inj h (len _ _)).1
  have h := lit_cut _ (List.append_inj h (len _ _)).2
  have inj : ∀ c d : Bool, (if c then "BID".toList else "ASK".toList) = (if d then "BID".toList else "ASK".toList) → c = d := by decide
  have h0 := inj _ _ hb
  obtain ⟨h1, h⟩ := num_lit "; TotalVolume=" (c := ';') rfl (by decide) h
  obtain ⟨h2, h⟩ := num_lit "; HiddenVolume=" (c := ';') rfl (by decide) h
  obtain ⟨h3, h⟩ := num_lit "; VisibleVolume=" (c := ';') rfl (by decide) h
  obtain ⟨h4, h⟩ := num_lit "; Orders=" (c := ';') rfl (by decide) h
  obtain ⟨h5, h⟩ := num_lit ")" (c := ')') rfl (by decide) h
  refine ⟨?_, h⟩
  cases a; cases b
  simp only at h0 h1 h2 h3 h4 h5
  subst h0 h1 h2 h3 h4 h5
  rfl

theorem top_inj {a b : Bool} (h : top a = top b) : a = b := by revert h; revert a b; decide

theorem update_cut {a b : LevelUpdate} (h : levelUpdate a = levelUpdate b) : a = b := by
  unfold levelUpdate at h
  have h := lit_cut _ h
  have uf : ∀ t : UpdType, ';' ∉ update t := by intro t; cases t <;> decide
  obtain ⟨h1, h⟩ := word_lit "; Update=" (c := ';') rfl (uf _) (uf _) h
  obtain ⟨h2, h⟩ := level_cut h
  have h := lit_cut _ h
  obtain ⟨h3, _⟩ := num_lit ")" (c := ')') rfl (by decide) (x := []) (y := []) (by simpa using h)
  cases a; cases b
  simp only at h1 h2 h3
  rw [update_inj h1, h2]
  have : ∀ c d : Bool, c.toNat = d.toNat → c = d := by decide
  rw [this _ _ h3]

/-- Reading a number at the end. -/
theorem num_last {a b : List Char} {c : Char} (hc : c.isDigit = false) {m n : Nat} (h : a ++ c :: num m = b ++ c :: num n) : a = b ∧ m = n := by
  have h := congrArg List.reverse h
  simp only [List.reverse_append, List.reverse_cons, List.append_assoc, List.singleton_append] at h
  obtain ⟨h1, h2⟩ := cut (c := c) (fun m => num_free hc _ (List.mem_reverse.1 m)) (fun m => num_free hc _ (List.mem_reverse.1 m)) h
  exact ⟨List.reverse_inj.1 h2, num_inj (List.reverse_inj.1 h1)⟩

theorem num_label (l : String) {t : List Char} {c : Char} (hl : l.toList = t ++ [c]) (hc : c.isDigit = false) {a b : List Char} {m n : Nat}
    (h : a ++ (l.toList ++ num m) = b ++ (l.toList ++ num n)) : a = b ∧ m = n := by
  rw [hl] at h
  simp only [List.append_assoc, List.singleton_append] at h
  rw [← List.append_assoc, ← List.append_assoc] at h
  obtain ⟨h1, h2⟩ := num_last hc h
  exact ⟨List.append_cancel_right h1, h2⟩

theorem sizes_cut {a b : List Char} {y z : Sizes} (h : a ++ sizes y = b ++ sizes z) : a = b ∧ y = z := by
  have e : ∀ z : Sizes, sizes z = "; Bids=".toList ++ num z.bids ++ "; Asks=".toList ++ num z.asks ++ "; BuyStop=".toList ++ num z.buyStop
    ++ "; SellStop=".toList ++ num z.sellStop ++ "; TrailingBuyStop=".toList ++ num z.tBuyStop
    ++ "; TrailingSellStop=".toList ++ num z.tSellStop := fun _ => rfl
  rw [e, e] at h
  rw [← List.append_assoc a, ← List.append_assoc b] at h
  have step : ∀ (l : String) {t : List Char} {c : Char}, l.toList = t ++ [c] → c.isDigit = false → ∀ {a b : List Char} {m n : Nat},
      a ++ l.toList ++ num m = b ++ l.toList ++ num n → a = b ∧ m = n := by
    intro l t c hl hc a b m n h
    rw [List.append_assoc, List.append_assoc] at h
    exact num_label l hl hc h
  simp only [← List.append_assoc] at h
  obtain ⟨h, h6⟩ := step "; TrailingSellStop=" (t := "; TrailingSellStop".toList) (c := '=') rfl (by decide) h
  obtain ⟨h, h5⟩ := step "; TrailingBuyStop=" (t := "; TrailingBuyStop".toList) (c := '=') rfl (by decide) h
  obtain ⟨h, h4⟩ := step "; SellStop=" (t := "; SellStop".toList) (c := '=') rfl (by decide) h
  obtain ⟨h, h3⟩ := step "; BuyStop=" (t := "; BuyStop".toList) (c := '=') rfl (by decide) h
  obtain ⟨h, h2⟩ := step "; Asks=" (t := "; Asks".toList) (c := '=') rfl (by decide) h
  obtain ⟨h, h1⟩ := step "; Bids=" (t := "; Bids".toList) (c := '=') rfl (by decide) h
  refine ⟨h, ?_⟩
  cases y; cases z
  simp only at h1 h2 h3 h4 h5 h6
  subst h1 h2 h3 h4 h5 h6
  rfl

theorem symbol_inj {w : Nat → List Char} {a b : Symbol} (h : symbol w a = symbol w b) : a.id = b.id ∧ w a.name = w b.name := by
  unfold symbol at h
  have h := lit_cut _ h
  obtain ⟨h1, h⟩ := num_lit "; Name=" (c := ';') rfl (by decide) h
  exact ⟨h1, List.append_cancel_right h⟩

theorem book_inj {w : Nat → List Char} {a b : Symbol} {y z : Sizes} (h : book w a y = book w b z) : a.id = b.id ∧ w a.name = w b.name ∧ y = z := by
  unfold book at h
  have h := List.append_cancel_right (lit_cut _ h)
  obtain ⟨h1, h2⟩ := sizes_cut h
  exact ⟨(symbol_inj h1).1, (symbol_inj h1).2, h2⟩

theorem book_top {w : Nat → List Char} {a b : Symbol} {y z : Sizes} {s t : Bool} (h : book w a y ++ top s = book w b z ++ top t) :
    a.id = b.id ∧ w a.name = w b.name ∧ y = z ∧ s = t := by
  have last : ∀ (a : Symbol) (y : Sizes) (s : Bool), (book w a y ++ top s).getLast? = some (if s then '!' else ')') := by
    intro a y s
    unfold book
    cases s
    · rw [show top false = [] from rfl, List.append_nil, ← List.append_assoc]
      exact List.getLast?_concat ..
    · rw [show top true = " - Top of the book".toList ++ ['!'] from rfl, ← List.append_assoc]
      exact List.getLast?_concat ..
  have hl := congrArg List.getLast? h
  rw [last, last] at hl
  have hst : s = t := by
    revert hl; clear h last; revert s t; decide
  rw [hst] at h
  obtain ⟨h1, h2, h3⟩ := book_inj (List.append_cancel_right h)
  exact ⟨h1, h2, h3, hst⟩

end Text
end CppTrader
