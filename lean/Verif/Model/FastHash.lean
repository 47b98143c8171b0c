/-
Model of include/trader/matching/fast_hash.h and fast_hash.inl.
-/

namespace CppTrader.FastHash

/-- fast_hash.inl:14-22 `FastHash::operator()`: the hash of an order id. `uint64_t` is `BitVec 64`,
`size_t` has 64 bits. -/
def hash (value : BitVec 64) : BitVec 64 :=
  let value := value ^^^ (value >>> 33)
  let value := value * 0xFF51AFD7ED558CCD#64
  let value := value ^^^ (value >>> 33)
  let value := value * 0xC4CEB9FE1A85EC53#64
  let value := value ^^^ (value >>> 33)
  value

/-- `(uint64_t)str[i]`: `char` is signed on the supported platforms, so the conversion sign-extends. -/
def charToU64 (c : BitVec 8) : BitVec 64 := c.signExtend 64

/-- fast_hash.inl:24-36 `FastHash::Parse`. -/
def parse (s : Fin 8 → BitVec 8) : BitVec 64 :=
  let value := 0#64
  let value := value ||| charToU64 (s 0)
  let value := value ||| (charToU64 (s 1)) <<< 8
  let value := value ||| (charToU64 (s 2)) <<< 16
  let value := value ||| (charToU64 (s 3)) <<< 24
  let value := value ||| (charToU64 (s 4)) <<< 32
  let value := value ||| (charToU64 (s 5)) <<< 40
  let value := value ||| (charToU64 (s 6)) <<< 48
  let value := value ||| (charToU64 (s 7)) <<< 56
  value

end CppTrader.FastHash
