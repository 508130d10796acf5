import Verif.Ext.Crypto
import Verif.Ext.Num

/-!
# Paillier encryption (`kzen-paillier` 0.4, `core.rs`)

The crate is not in `/repo`; this is a model of its documented behaviour.  An encryption key is
its modulus `n` (the field `nn` is `n * n`).
-/

namespace Verif.Paillier

/-- `Paillier::encrypt_with_chosen_randomness`: `(1 + m n) r^n mod n²`; plaintexts are not
range-checked. -/
def encrypt (n : ℕ) (m r : ℤ) : ℤ :=
  let nn : ℤ := n * n
  rem (rem (m * n + 1) nn * (r ^ n % nn)) nn

/-- `Paillier::add(ek, c1, c2)` -/
def add (n : ℕ) (c1 c2 : ℤ) : ℤ := rem (c1 * c2) (n * n)

/-- `Paillier::mul(ek, c, m)` for a non-negative plaintext `m` (all callers pass scalars). -/
def mul (n : ℕ) (c : ℤ) (m : ℕ) : ℤ := c ^ m % (n * n)

/-- `l(u, n) = (u - 1) / n` -/
def l (u n : ℤ) : ℤ := (u - 1).tdiv n

/-- `h(p, pp, n)`: the inverse of `l((1 - n) mod p², p)` modulo `p` -/
def h (p n : ℕ) : Option ℤ := modInv (l ((1 - (n : ℤ)) % (p * p)) p) p

/-- One half of the decryption: the plaintext modulo `p`. -/
def decryptMod (p n : ℕ) (c : ℤ) : Option ℤ := do
  let hp ← h p n
  some (l ((c % (p * p)) ^ (p - 1) % (p * p)) p * hp % p)

/-- `crt_recombine(x1, x2, m1, m2, m1inv)` -/
def recombine (x1 x2 m1 m2 m1inv : ℤ) : ℤ := x1 + ((x2 - x1) % m2 * m1inv % m2) * m1

/-- `Paillier::decrypt`: by the Chinese remainder theorem from the two primes. -/
def decrypt (dk : DecKey) (c : ℤ) : Option ℤ := do
  let mp ← decryptMod dk.p dk.n c
  let mq ← decryptMod dk.q dk.n c
  let pinv ← modInv dk.p dk.q
  some (recombine mp mq dk.p dk.q pinv)

/-- `Paillier::open`: the plaintext and the randomness.  Simplification: the n-th root is taken
modulo `n` directly instead of modulo the two primes. -/
def openCiphertext (dk : DecKey) (c : ℤ) : Option (ℤ × ℤ) := do
  let m ← decrypt dk c
  let rn := c * ((1 - m * dk.n) % (dk.n * dk.n)) % dk.n
  let d ← modInv dk.n (((dk.p - 1) * (dk.q - 1) : ℕ) : ℤ)
  some (m, rn ^ d.toNat % dk.n)

/-- `c` encrypts `m` with randomness `r`. -/
def IsEnc (n : ℕ) (c m r : ℤ) : Prop := c ≡ (1 + m * n) * r ^ n [ZMOD (n * n : ℤ)]

end Verif.Paillier
