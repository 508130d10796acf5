import Verif.Base.BigPrimes
import Mathlib.Algebra.BigOperators.Group.List.Basic

/-!
# Malicious parameters

Numbers for the attacks of C90 and C91: a 2048-bit modulus all of whose prime factors are below 12740, and auxiliary
parameters that disclose residues modulo 65537.
-/

namespace Verif

/-- Primes above 6370 -/
def smoothPrimes : List ℕ :=
  [6373, 6379, 6389, 6397, 6421, 6427, 6449, 6451, 6469, 6473, 6481, 6491, 6521, 6529, 6547, 6551, 6553, 6563,
   6569, 6571, 6577, 6581, 6599, 6607, 6619, 6637, 6653, 6659, 6661, 6673, 6679, 6689, 6691, 6701, 6703, 6709,
   6719, 6733, 6737, 6761, 6763, 6779, 6781, 6791, 6793, 6803, 6823, 6827, 6829, 6833, 6841, 6857, 6863, 6869,
   6871, 6883, 6899, 6907, 6911, 6917, 6947, 6949, 6959, 6961, 6967, 6971, 6977, 6983, 6991, 6997, 7001, 7013,
   7019, 7027, 7039, 7043, 7057, 7069, 7079, 7103, 7109, 7121, 7127, 7129, 7151, 7159, 7177, 7187, 7193, 7207,
   7211, 7213, 7219, 7229, 7237, 7243, 7247, 7253, 7283, 7297, 7307, 7309, 7321, 7331, 7333, 7349, 7351, 7369,
   7393, 7411, 7417, 7433, 7451, 7457, 7459, 7477, 7481, 7487, 7489, 7499, 7507, 7517, 7523, 7529, 7537, 7541,
   7547, 7549, 7559, 7561, 7573, 7577, 7583, 7589, 7591, 7603, 7607, 7621, 7639, 7643, 7649, 7669, 7673, 7681,
   7687, 7691, 7699, 7703, 7717, 7723, 7727, 7741, 7753, 7757, 7759, 7789, 7793, 7817, 7823, 7829]

/-- A modulus of 2048 bits that is easy to factor -/
def smoothN : ℕ := smoothPrimes.prod

/-- No prime in the list has a divisor up to its square root, which is below 113. -/
theorem smoothPrimes_prime : ∀ p ∈ smoothPrimes, p.Prime := by
  have h : ∀ p ∈ smoothPrimes, 2 ≤ p ∧ p < 113 * 113 ∧ ∀ m ∈ List.range' 2 111, p % m ≠ 0 := by decide +kernel
  intro p hp
  obtain ⟨h2, hlt, hm⟩ := h p hp
  refine Nat.prime_def_le_sqrt.2 ⟨h2, fun m hm2 hms hd => hm m ?_ (Nat.mod_eq_zero_of_dvd hd)⟩
  have := Nat.sqrt_lt.2 hlt
  rw [List.mem_range'_1]
  omega

theorem smoothPrimes_range : ∀ p ∈ smoothPrimes, 6370 < p ∧ p < 12740 := by decide +kernel

theorem smoothPrimes_nodup : smoothPrimes.Nodup := by decide +kernel

theorem smooth_size : smoothN.size = 2048 := by
  refine le_antisymm (Nat.size_le.2 (by decide +kernel)) ?_
  exact Nat.lt_size.2 (by decide +kernel)

theorem smooth_coprime : Nat.Coprime smoothPrimes.prod (smoothPrimes.map (· - 1)).prod := by decide +kernel

/-- A prime with `65537 ∣ leakP - 1` -/
def leakP : ℕ := 65537 * 32969 * 2 ^ 992 + 1

theorem leakP_prime : leakP.Prime := by
  refine Pratt.prime_of_cert (a := 3) 1024 (by decide +kernel) (by decide +kernel)
    (by decide +kernel) [2, 32969, 65537] ?_ (by decide +kernel)
  intro q hq hd
  have : leakP - 1 = 65537 * 32969 * 2 ^ 992 := by decide +kernel
  rw [this] at hd
  rcases (Nat.Prime.dvd_mul hq).1 hd with h | h
  · rcases (Nat.Prime.dvd_mul hq).1 h with h | h
    · simp [(Nat.prime_dvd_prime_iff_eq hq (by norm_num)).1 h]
    · simp [(Nat.prime_dvd_prime_iff_eq hq (by norm_num)).1 h]
  · simp [(Nat.prime_dvd_prime_iff_eq hq Nat.prime_two).1 (hq.dvd_of_dvd_pow h)]

/-- The exponent that maps to the subgroup of order 65537 -/
def leakE : ℕ := 32969 * 2 ^ 992

/-- The auxiliary modulus -/
def leakN : ℕ := leakP * bigQ

/-- An element of order 65537 times `2 ^ 65537` -/
def leakH1 : ℕ := 0x23d02243407ce2ab2ba5b6195132d6adf3f996f7125b7c2804d3dc0153f3196c97d1763bffd536cbd8bfe0939a83106bd2651738f9ac1c905d21f57a3c9b5ed4ce225ea7362fb1d5e00bdde68ff04272de14c1ecf82d05220880c447c1b43816bcbafb40e866b118ef3a18e3d0b9c85137b632c6f957a574004f7172b9335881880fb9652381ffabedb6531a7d794111e3242e5cfaa9bbdd1e465b2b9e3b73d57ffb17cd07543855ae02f37c0956e845d86eac44b84565dc3635361cdcc3f79ab1476b404d82823c2c41f83b7e97ac0ae0fa1e1ff6332e7c207b804701bfa0161e6a760556b9a8347ff2b118f8d36703a786b794e7656dca07ed130b7d5b002e

/-- The inverse of `2 ^ 65537` -/
def leakH2 : ℕ := 0x270f052aa83c574d7055602d201d15b81652933332a8c768a2b58260afce4727332e4e2501ceb6cde12f04e670ce5d6aeb4856c90b8e9767f7e0ae2af09719555c7c99a26b71cc74061cfb6fb1ea7d0e02ba3b7a6a4fefdf54273c62895ea4bb40e6d584645b36e80a84aa089585a5b5b67bd7e3ca080892e510744a37f1ea8aa62b5f595bd2fd966f899fcb5696bdd5f9c15dc1936bc42d46c3c52ecdd15777863a3c5b040a3c33711dbd61097360811f8bc5ffd1f1f8506fb96cd5c80d4462f9a0b537e96d16e922cdcc403ba293bdff7ecf5d613e6799401c74655315f4dc58cdf4f2682d8ca2548c93bc194a759229cad389417b503e68a7b5cd0a6d733f

/-- First messages of the two proofs, for which the challenge is a multiple of 65537 -/
def leakX1 : ℕ := 0x5a8c0de53e4c88172b69df2182e780d22625a17c1d5857bb481d8082a1dddae2adf7d3dac1193dda9103a9d8c7a431ca87be77584638cbc283bdbe8db6465d7ebb38dac722f7435251b9326c85e3f1bb817f1d09d568eed84f8464ff2c042cc980802acdf425f1bb3d8960829740039f65b6caa67a381a70f977228cad14c869a3491b3ac9290b4db6ca10f869acd229bc4bce86836f853636fbbd1690f401f8ee4e2563751325d448acc9472ad282abab765c5409b204bfa78c5f40792af24371dccd2f4900e492c4ae5590e3d646b4ae3d48879825b224e7fcd9a1d83baebdca6760eb9dd5a0a65b683885f6781b51c99888782ab3deefcd20d95c7f26eb31

def leakX2 : ℕ := 0x7ee60f6896f55622955e8125ae898d78558db09ca30fed4cfb1ff13be11db42391a4a64eafa7805fa5ba86ccd32246f3904291b3c462c5f93f8e3274f0d0c27b5c62a076fce70116bbb66a39fcb9cb11e0cd716da9ec9f78b47304f82ccac41b0b0d7580ed81aee732513c367a0fa76219d327b6288493a1416240fc6372da4e8e6a8ad40804caa649df37fb793cd321e01946dd3e51db9967230d514739119481bcfc01050c3072e45bbdd5f5479e8eac7f03c8131984f175494398d0a0a732e2296b50cf8d0f829e62f9927297cba940e037149c733648c61531e2e189e47652e1784f61412a31a0c9eb47f7a9f0fdbf609e4a996b3f2dc6a85283d6fb4e6

/-- The logarithms of the first messages -/
def leakR1 : ℕ := 13070
def leakR2 : ℕ := 4278

theorem leak_size : leakN.size = 2047 := by
  refine le_antisymm (Nat.size_le.2 (by decide +kernel)) ?_
  exact Nat.lt_size.2 (by decide +kernel)

end Verif
