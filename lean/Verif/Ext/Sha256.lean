import Verif.Ext.Bytes

/-!
# SHA-256

The hash function of FIPS 180-4 on byte strings, with words as numbers below `2^32`.  The library takes it from
the `sha2` crate.
-/

namespace Verif.Sha256

/-- Words have 32 bits. -/
def word (n : ℕ) : ℕ := n % 2 ^ 32

/-- rotation to the right -/
def rotr (k x : ℕ) : ℕ := (x >>> k) ||| word (x <<< (32 - k))

def ch (x y z : ℕ) : ℕ := (x &&& y) ^^^ ((x ^^^ 0xffffffff) &&& z)
def maj (x y z : ℕ) : ℕ := (x &&& y) ^^^ (x &&& z) ^^^ (y &&& z)
def bigSigma0 (x : ℕ) : ℕ := rotr 2 x ^^^ rotr 13 x ^^^ rotr 22 x
def bigSigma1 (x : ℕ) : ℕ := rotr 6 x ^^^ rotr 11 x ^^^ rotr 25 x
def sigma0 (x : ℕ) : ℕ := rotr 7 x ^^^ rotr 18 x ^^^ (x >>> 3)
def sigma1 (x : ℕ) : ℕ := rotr 17 x ^^^ rotr 19 x ^^^ (x >>> 10)

/-- The round constants -/
def K : List ℕ :=
  [0x428a2f98, 0x71374491, 0xb5c0fbcf, 0xe9b5dba5, 0x3956c25b, 0x59f111f1,
   0x923f82a4, 0xab1c5ed5, 0xd807aa98, 0x12835b01, 0x243185be, 0x550c7dc3,
   0x72be5d74, 0x80deb1fe, 0x9bdc06a7, 0xc19bf174, 0xe49b69c1, 0xefbe4786,
   0x0fc19dc6, 0x240ca1cc, 0x2de92c6f, 0x4a7484aa, 0x5cb0a9dc, 0x76f988da,
   0x983e5152, 0xa831c66d, 0xb00327c8, 0xbf597fc7, 0xc6e00bf3, 0xd5a79147,
   0x06ca6351, 0x14292967, 0x27b70a85, 0x2e1b2138, 0x4d2c6dfc, 0x53380d13,
   0x650a7354, 0x766a0abb, 0x81c2c92e, 0x92722c85, 0xa2bfe8a1, 0xa81a664b,
   0xc24b8b70, 0xc76c51a3, 0xd192e819, 0xd6990624, 0xf40e3585, 0x106aa070,
   0x19a4c116, 0x1e376c08, 0x2748774c, 0x34b0bcb5, 0x391c0cb3, 0x4ed8aa4a,
   0x5b9cca4f, 0x682e6ff3, 0x748f82ee, 0x78a5636f, 0x84c87814, 0x8cc70208,
   0x90befffa, 0xa4506ceb, 0xbef9a3f7, 0xc67178f2]

/-- Padding: a one bit, zeros up to a multiple of 64 bytes and the number of bits in 8 bytes -/
def pad (msg : List UInt8) : List UInt8 :=
  msg ++ 0x80 :: List.replicate ((119 - msg.length % 64) % 64) 0 ++ beBytes 8 (8 * msg.length)

/-- The `i`-th block of 64 bytes as 16 words -/
def block (bs : List UInt8) (i : ℕ) : List ℕ :=
  (List.range 16).map fun j => fromBytes ((bs.drop (64 * i + 4 * j)).take 4)

/-- The message schedule -/
def schedule (b : List ℕ) : List ℕ :=
  ((List.range 48).foldl (fun l _ =>
    word (sigma1 (l.getD 1 0) + l.getD 6 0 + sigma0 (l.getD 14 0) + l.getD 15 0) :: l) b.reverse).reverse

/-- The eight working variables -/
structure St where
  (a b c d e f g h : ℕ)

def St.round (s : St) (kw : ℕ × ℕ) : St :=
  let t1 := s.h + bigSigma1 s.e + ch s.e s.f s.g + kw.1 + kw.2
  let t2 := bigSigma0 s.a + maj s.a s.b s.c
  ⟨word (t1 + t2), s.a, s.b, s.c, word (s.d + t1), s.e, s.f, s.g⟩

def St.add (s t : St) : St :=
  ⟨word (s.a + t.a), word (s.b + t.b), word (s.c + t.c), word (s.d + t.d),
    word (s.e + t.e), word (s.f + t.f), word (s.g + t.g), word (s.h + t.h)⟩

/-- The compression function -/
def compress (s : St) (b : List ℕ) : St := s.add ((K.zip (schedule b)).foldl St.round s)

def init : St :=
  ⟨0x6a09e667, 0xbb67ae85, 0x3c6ef372, 0xa54ff53a,
   0x510e527f, 0x9b05688c, 0x1f83d9ab, 0x5be0cd19⟩

def St.bytes (s : St) : List UInt8 :=
  [s.a, s.b, s.c, s.d, s.e, s.f, s.g, s.h].flatMap (beBytes 4)

/-- The digest of a byte string -/
def hash (msg : List UInt8) : List UInt8 :=
  let bs := pad msg
  ((List.range (bs.length / 64)).foldl (fun s i => compress s (block bs i)) init).bytes

/-- FIPS 180-4 test vectors -/
example : hash [0x61, 0x62, 0x63] =
    beBytes 32 0xba7816bf8f01cfea414140de5dae2223b00361a396177a9cb410ff61f20015ad := by decide +kernel

example : hash [] =
    beBytes 32 0xe3b0c44298fc1c149afbf4c8996fb92427ae41e4649b934ca495991b7852b855 := by decide +kernel

/-- 56 bytes, two blocks: "abcdbcdecdefdefgefghfghighijhijkijkljklmklmnlmnomnopnopq" -/
example : hash ((List.range 14).flatMap fun i => (List.range 4).map fun j => UInt8.ofNat (0x61 + i + j)) =
    beBytes 32 0x248d6a61d20638b8e5c026930c3e6039a33ce45964ff2167f6ecedd419db06c1 := by decide +kernel

end Verif.Sha256
