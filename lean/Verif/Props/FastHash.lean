import Verif.Model.FastHash
/- Properties C29 (order-id hash) and C30 (symbol-name packing). -/

namespace CppTrader.FastHash

theorem xorshift33_involutive (x : BitVec 64) :
    (x ^^^ x >>> 33) ^^^ (x ^^^ x >>> 33) >>> 33 = x := by
  rw [BitVec.ushiftRight_xor_distrib, ← BitVec.shiftRight_add]
  have : x >>> (33 + 33) = 0#64 := BitVec.ushiftRight_eq_zero (by omega)
  rw [this, BitVec.xor_zero, BitVec.xor_assoc, BitVec.xor_self, BitVec.xor_zero]

/-- The inverse of the hash: undo the five steps in reverse order. -/
def unhash (y : BitVec 64) : BitVec 64 :=
  let y := y ^^^ (y >>> 33)
  let y := y * 0x9CB4B2F8129337DB#64
  let y := y ^^^ (y >>> 33)
  let y := y * 0x4F74430C22A54005#64
  y ^^^ (y >>> 33)

theorem unhash_hash (x : BitVec 64) : unhash (hash x) = x := by
  unfold unhash hash
  simp only
  rw [xorshift33_involutive, BitVec.mul_assoc,
    show (0xC4CEB9FE1A85EC53#64 * 0x9CB4B2F8129337DB#64) = 1#64 by decide, BitVec.mul_one,
    xorshift33_involutive, BitVec.mul_assoc,
    show (0xFF51AFD7ED558CCD#64 * 0x4F74430C22A54005#64) = 1#64 by decide, BitVec.mul_one,
    xorshift33_involutive]

theorem hash_unhash (y : BitVec 64) : hash (unhash y) = y := by
  unfold unhash hash
  simp only
  rw [xorshift33_involutive, BitVec.mul_assoc,
    show (0x4F74430C22A54005#64 * 0xFF51AFD7ED558CCD#64) = 1#64 by decide, BitVec.mul_one,
    xorshift33_involutive, BitVec.mul_assoc,
    show (0x9CB4B2F8129337DB#64 * 0xC4CEB9FE1A85EC53#64) = 1#64 by decide, BitVec.mul_one,
    xorshift33_involutive]

/-- C29: two different 64-bit order ids never have the same hash. -/
theorem hash_injective : ∀ x y : BitVec 64, hash x = hash y → x = y := fun x y h => by
  rw [← unhash_hash x, h, unhash_hash]

/-- C29: every 64-bit value is the hash of some order id. -/
theorem hash_surjective : ∀ y : BitVec 64, ∃ x, hash x = y := fun y => ⟨unhash y, hash_unhash y⟩

-- non-trivial instance: distinct ids, distinct hashes
example : (1#64 ≠ 2#64) ∧ hash 1#64 ≠ hash 2#64 := by decide

/-- An ASCII string: every byte below 0x80. -/
def Ascii (s : Fin 8 → BitVec 8) : Prop := ∀ i, (s i).toNat < 128

theorem signExtend_ascii {c : BitVec 8} (h : c.toNat < 128) : charToU64 c = c.setWidth 64 := by
  unfold charToU64
  apply BitVec.signExtend_eq_setWidth_of_msb_false
  rw [BitVec.msb_eq_decide]; simp; omega

theorem piece (c : BitVec 8) (sh i j : Nat) (hj : j < 8) (hi : i < 8) (k : Nat) (hk : sh = 8 * k) :
    ((c.setWidth 64) <<< sh).getLsbD (8 * i + j) = (decide (i = k) && c.getLsbD j) := by
  subst hk
  rw [BitVec.getLsbD_shiftLeft, BitVec.getLsbD_setWidth]
  have h1 : 8 * i + j < 64 := by omega
  by_cases h : i = k
  · subst h
    have h2 : 8 * i + j - 8 * i = j := by omega
    have h3 : j < 64 := by omega
    simp [h1, h2, h3]
  · by_cases h2 : i < k
    · have : 8 * i + j < 8 * k := by omega
      simp [this, h]
    · rw [BitVec.getLsbD_of_ge c _ (by omega : 8 ≤ 8 * i + j - 8 * k)]
      simp [h]

/-- C30 (value): an ASCII name is packed little-endian, byte `i` in bits `8i … 8i+7`. -/
theorem parse_byte (s : Fin 8 → BitVec 8) (h : Ascii s) (i : Fin 8) :
    (parse s).extractLsb' (8 * i.val) 8 = s i := by
  unfold parse
  simp only [signExtend_ascii (h _)]
  apply BitVec.eq_of_getLsbD_eq
  intro j hj
  have h0 : ((s 0).setWidth 64).getLsbD (8 * i.val + j) = (decide (i.val = 0) && (s 0).getLsbD j) := by
    have := piece (s 0) 0 i.val j hj i.isLt 0 rfl
    rwa [BitVec.shiftLeft_zero] at this
  simp only [BitVec.getLsbD_extractLsb', BitVec.getLsbD_or, BitVec.getLsbD_zero, h0,
    piece _ 8 i.val j hj i.isLt 1 rfl, piece _ 16 i.val j hj i.isLt 2 rfl,
    piece _ 24 i.val j hj i.isLt 3 rfl, piece _ 32 i.val j hj i.isLt 4 rfl,
    piece _ 40 i.val j hj i.isLt 5 rfl, piece _ 48 i.val j hj i.isLt 6 rfl,
    piece _ 56 i.val j hj i.isLt 7 rfl]
  match i with
  | ⟨0, _⟩ | ⟨1, _⟩ | ⟨2, _⟩ | ⟨3, _⟩ | ⟨4, _⟩ | ⟨5, _⟩ | ⟨6, _⟩ | ⟨7, _⟩ => simp [hj]; try rfl

/-- C30: distinct ASCII symbol names are packed into distinct values. -/
theorem parse_injective (s t : Fin 8 → BitVec 8) (hs : Ascii s) (ht : Ascii t) (h : parse s = parse t) : s = t := by
  funext i
  rw [← parse_byte s hs i, ← parse_byte t ht i, h]

/-- "AAPL    " -/
def aapl : Fin 8 → BitVec 8 := fun i => [0x41, 0x41, 0x50, 0x4C, 0x20, 0x20, 0x20, 0x20][i.val]
example : Ascii aapl ∧ parse aapl = 0x202020204C504141#64 := by
  constructor
  · unfold Ascii aapl; decide
  · decide

/-- C30, boundary: without the ASCII restriction the claim is false. A byte ≥ 0x80 is sign-extended and
swallows all following bytes. -/
theorem parse_not_injective_nonAscii : ∃ s t : Fin 8 → BitVec 8, s ≠ t ∧ parse s = parse t := by
  refine ⟨fun i => if i = 0 then 0x80 else 0, fun i => if i = 0 then 0x80 else if i = 1 then 0x41 else 0, ?_, ?_⟩
  · intro h; have := congrFun h 1; simp at this
  · decide

end CppTrader.FastHash
