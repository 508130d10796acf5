import Verif.Base.Pratt

/-!
# The two primes of secp256k1

Pratt certificates for the field characteristic and the group order.
-/

namespace Verif.Secp256k1

theorem prime_7723 : Nat.Prime 7723 := by norm_num

theorem prime_31 : Nat.Prime 31 := by norm_num

theorem prime_29 : Nat.Prime 29 := by norm_num

theorem prime_5 : Nat.Prime 5 := by norm_num

theorem prime_3 : Nat.Prime 3 := by norm_num

theorem prime_2 : Nat.Prime 2 := by norm_num

theorem prime_20113 : Nat.Prime 20113 := by norm_num

theorem prime_1206781 : Nat.Prime 1206781 :=
  Pratt.prime_of_list (a := 10) 21 [2, 2, 3, 5, 20113] (by decide +kernel)
    (by decide +kernel) (by decide +kernel) (by decide +kernel) (by decide +kernel) <|
    List.forall_mem_cons.2 ⟨prime_2,
    List.forall_mem_cons.2 ⟨prime_2,
    List.forall_mem_cons.2 ⟨prime_3,
    List.forall_mem_cons.2 ⟨prime_5,
    List.forall_mem_cons.2 ⟨prime_20113, List.forall_mem_nil _⟩⟩⟩⟩⟩

theorem prime_7240687 : Nat.Prime 7240687 :=
  Pratt.prime_of_list (a := 3) 23 [2, 3, 1206781] (by decide +kernel)
    (by decide +kernel) (by decide +kernel) (by decide +kernel) (by decide +kernel) <|
    List.forall_mem_cons.2 ⟨prime_2,
    List.forall_mem_cons.2 ⟨prime_3,
    List.forall_mem_cons.2 ⟨prime_1206781, List.forall_mem_nil _⟩⟩⟩

theorem prime_53 : Nat.Prime 53 := by norm_num

theorem prime_7 : Nat.Prime 7 := by norm_num

theorem prime_107590001 : Nat.Prime 107590001 :=
  Pratt.prime_of_list (a := 3) 27 [2, 2, 2, 2, 5, 5, 5, 5, 7, 29, 53] (by decide +kernel)
    (by decide +kernel) (by decide +kernel) (by decide +kernel) (by decide +kernel) <|
    List.forall_mem_cons.2 ⟨prime_2,
    List.forall_mem_cons.2 ⟨prime_2,
    List.forall_mem_cons.2 ⟨prime_2,
    List.forall_mem_cons.2 ⟨prime_2,
    List.forall_mem_cons.2 ⟨prime_5,
    List.forall_mem_cons.2 ⟨prime_5,
    List.forall_mem_cons.2 ⟨prime_5,
    List.forall_mem_cons.2 ⟨prime_5,
    List.forall_mem_cons.2 ⟨prime_7,
    List.forall_mem_cons.2 ⟨prime_29,
    List.forall_mem_cons.2 ⟨prime_53, List.forall_mem_nil _⟩⟩⟩⟩⟩⟩⟩⟩⟩⟩⟩

theorem prime_96557 : Nat.Prime 96557 := by norm_num

theorem prime_41201 : Nat.Prime 41201 := by norm_num

theorem prime_4423 : Nat.Prime 4423 := by norm_num

theorem prime_2657 : Nat.Prime 2657 := by norm_num

theorem prime_1627 : Nat.Prime 1627 := by norm_num

theorem prime_11 : Nat.Prime 11 := by norm_num

theorem prime_255515944373312847190720520512484175977 : Nat.Prime 255515944373312847190720520512484175977 :=
  Pratt.prime_of_list (a := 3) 128 [2, 2, 2, 7, 7, 11, 1627, 2657, 4423, 41201, 96557, 7240687, 107590001] (by decide +kernel)
    (by decide +kernel) (by decide +kernel) (by decide +kernel) (by decide +kernel) <|
    List.forall_mem_cons.2 ⟨prime_2,
    List.forall_mem_cons.2 ⟨prime_2,
    List.forall_mem_cons.2 ⟨prime_2,
    List.forall_mem_cons.2 ⟨prime_7,
    List.forall_mem_cons.2 ⟨prime_7,
    List.forall_mem_cons.2 ⟨prime_11,
    List.forall_mem_cons.2 ⟨prime_1627,
    List.forall_mem_cons.2 ⟨prime_2657,
    List.forall_mem_cons.2 ⟨prime_4423,
    List.forall_mem_cons.2 ⟨prime_41201,
    List.forall_mem_cons.2 ⟨prime_96557,
    List.forall_mem_cons.2 ⟨prime_7240687,
    List.forall_mem_cons.2 ⟨prime_107590001, List.forall_mem_nil _⟩⟩⟩⟩⟩⟩⟩⟩⟩⟩⟩⟩⟩

theorem prime_1373 : Nat.Prime 1373 := by norm_num

theorem prime_971 : Nat.Prime 971 := by norm_num

theorem prime_13331831 : Nat.Prime 13331831 :=
  Pratt.prime_of_list (a := 13) 24 [2, 5, 971, 1373] (by decide +kernel)
    (by decide +kernel) (by decide +kernel) (by decide +kernel) (by decide +kernel) <|
    List.forall_mem_cons.2 ⟨prime_2,
    List.forall_mem_cons.2 ⟨prime_5,
    List.forall_mem_cons.2 ⟨prime_971,
    List.forall_mem_cons.2 ⟨prime_1373, List.forall_mem_nil _⟩⟩⟩⟩

theorem prime_24809 : Nat.Prime 24809 := by norm_num

theorem prime_2621 : Nat.Prime 2621 := by norm_num

theorem prime_173378833005251801 : Nat.Prime 173378833005251801 :=
  Pratt.prime_of_list (a := 6) 58 [2, 2, 2, 5, 5, 2621, 24809, 13331831] (by decide +kernel)
    (by decide +kernel) (by decide +kernel) (by decide +kernel) (by decide +kernel) <|
    List.forall_mem_cons.2 ⟨prime_2,
    List.forall_mem_cons.2 ⟨prime_2,
    List.forall_mem_cons.2 ⟨prime_2,
    List.forall_mem_cons.2 ⟨prime_5,
    List.forall_mem_cons.2 ⟨prime_5,
    List.forall_mem_cons.2 ⟨prime_2621,
    List.forall_mem_cons.2 ⟨prime_24809,
    List.forall_mem_cons.2 ⟨prime_13331831, List.forall_mem_nil _⟩⟩⟩⟩⟩⟩⟩⟩

theorem prime_5323 : Nat.Prime 5323 := by norm_num

theorem prime_22149492674086928081353 : Nat.Prime 22149492674086928081353 :=
  Pratt.prime_of_list (a := 5) 75 [2, 2, 2, 3, 5323, 173378833005251801] (by decide +kernel)
    (by decide +kernel) (by decide +kernel) (by decide +kernel) (by decide +kernel) <|
    List.forall_mem_cons.2 ⟨prime_2,
    List.forall_mem_cons.2 ⟨prime_2,
    List.forall_mem_cons.2 ⟨prime_2,
    List.forall_mem_cons.2 ⟨prime_3,
    List.forall_mem_cons.2 ⟨prime_5323,
    List.forall_mem_cons.2 ⟨prime_173378833005251801, List.forall_mem_nil _⟩⟩⟩⟩⟩⟩

theorem prime_132896956044521568488119 : Nat.Prime 132896956044521568488119 :=
  Pratt.prime_of_list (a := 6) 77 [2, 3, 22149492674086928081353] (by decide +kernel)
    (by decide +kernel) (by decide +kernel) (by decide +kernel) (by decide +kernel) <|
    List.forall_mem_cons.2 ⟨prime_2,
    List.forall_mem_cons.2 ⟨prime_3,
    List.forall_mem_cons.2 ⟨prime_22149492674086928081353, List.forall_mem_nil _⟩⟩⟩

theorem prime_205115282021455665897114700593932402728804164701536103180137503955397371 : Nat.Prime 205115282021455665897114700593932402728804164701536103180137503955397371 :=
  Pratt.prime_of_list (a := 10) 237 [2, 3, 5, 29, 29, 31, 7723, 132896956044521568488119, 255515944373312847190720520512484175977] (by decide +kernel)
    (by decide +kernel) (by decide +kernel) (by decide +kernel) (by decide +kernel) <|
    List.forall_mem_cons.2 ⟨prime_2,
    List.forall_mem_cons.2 ⟨prime_3,
    List.forall_mem_cons.2 ⟨prime_5,
    List.forall_mem_cons.2 ⟨prime_29,
    List.forall_mem_cons.2 ⟨prime_29,
    List.forall_mem_cons.2 ⟨prime_31,
    List.forall_mem_cons.2 ⟨prime_7723,
    List.forall_mem_cons.2 ⟨prime_132896956044521568488119,
    List.forall_mem_cons.2 ⟨prime_255515944373312847190720520512484175977, List.forall_mem_nil _⟩⟩⟩⟩⟩⟩⟩⟩⟩

theorem prime_13441 : Nat.Prime 13441 := by norm_num

theorem prime_115792089237316195423570985008687907853269984665640564039457584007908834671663 : Nat.Prime 115792089237316195423570985008687907853269984665640564039457584007908834671663 :=
  Pratt.prime_of_list (a := 3) 256 [2, 3, 7, 13441, 205115282021455665897114700593932402728804164701536103180137503955397371] (by decide +kernel)
    (by decide +kernel) (by decide +kernel) (by decide +kernel) (by decide +kernel) <|
    List.forall_mem_cons.2 ⟨prime_2,
    List.forall_mem_cons.2 ⟨prime_3,
    List.forall_mem_cons.2 ⟨prime_7,
    List.forall_mem_cons.2 ⟨prime_13441,
    List.forall_mem_cons.2 ⟨prime_205115282021455665897114700593932402728804164701536103180137503955397371, List.forall_mem_nil _⟩⟩⟩⟩⟩

theorem prime_631 : Nat.Prime 631 := by norm_num

theorem prime_149 : Nat.Prime 149 := by norm_num

theorem prime_305873 : Nat.Prime 305873 := by norm_num

theorem prime_28181 : Nat.Prime 28181 := by norm_num

theorem prime_59 : Nat.Prime 59 := by norm_num

theorem prime_41 : Nat.Prime 41 := by norm_num

theorem prime_545358713 : Nat.Prime 545358713 :=
  Pratt.prime_of_list (a := 5) 30 [2, 2, 2, 41, 59, 28181] (by decide +kernel)
    (by decide +kernel) (by decide +kernel) (by decide +kernel) (by decide +kernel) <|
    List.forall_mem_cons.2 ⟨prime_2,
    List.forall_mem_cons.2 ⟨prime_2,
    List.forall_mem_cons.2 ⟨prime_2,
    List.forall_mem_cons.2 ⟨prime_41,
    List.forall_mem_cons.2 ⟨prime_59,
    List.forall_mem_cons.2 ⟨prime_28181, List.forall_mem_nil _⟩⟩⟩⟩⟩⟩

theorem prime_1871 : Nat.Prime 1871 := by norm_num

theorem prime_1627771 : Nat.Prime 1627771 :=
  Pratt.prime_of_list (a := 3) 21 [2, 3, 5, 29, 1871] (by decide +kernel)
    (by decide +kernel) (by decide +kernel) (by decide +kernel) (by decide +kernel) <|
    List.forall_mem_cons.2 ⟨prime_2,
    List.forall_mem_cons.2 ⟨prime_3,
    List.forall_mem_cons.2 ⟨prime_5,
    List.forall_mem_cons.2 ⟨prime_29,
    List.forall_mem_cons.2 ⟨prime_1871, List.forall_mem_nil _⟩⟩⟩⟩⟩

theorem prime_461 : Nat.Prime 461 := by norm_num

theorem prime_297159362677 : Nat.Prime 297159362677 :=
  Pratt.prime_of_list (a := 2) 39 [2, 2, 3, 3, 11, 461, 1627771] (by decide +kernel)
    (by decide +kernel) (by decide +kernel) (by decide +kernel) (by decide +kernel) <|
    List.forall_mem_cons.2 ⟨prime_2,
    List.forall_mem_cons.2 ⟨prime_2,
    List.forall_mem_cons.2 ⟨prime_3,
    List.forall_mem_cons.2 ⟨prime_3,
    List.forall_mem_cons.2 ⟨prime_11,
    List.forall_mem_cons.2 ⟨prime_461,
    List.forall_mem_cons.2 ⟨prime_1627771, List.forall_mem_nil _⟩⟩⟩⟩⟩⟩⟩

theorem prime_293 : Nat.Prime 293 := by norm_num

theorem prime_29047611873442575647497758179 : Nat.Prime 29047611873442575647497758179 :=
  Pratt.prime_of_list (a := 2) 95 [2, 293, 305873, 545358713, 297159362677] (by decide +kernel)
    (by decide +kernel) (by decide +kernel) (by decide +kernel) (by decide +kernel) <|
    List.forall_mem_cons.2 ⟨prime_2,
    List.forall_mem_cons.2 ⟨prime_293,
    List.forall_mem_cons.2 ⟨prime_305873,
    List.forall_mem_cons.2 ⟨prime_545358713,
    List.forall_mem_cons.2 ⟨prime_297159362677, List.forall_mem_nil _⟩⟩⟩⟩⟩

theorem prime_109 : Nat.Prime 109 := by norm_num

theorem prime_341948486974166000522343609283189 : Nat.Prime 341948486974166000522343609283189 :=
  Pratt.prime_of_list (a := 2) 109 [2, 2, 3, 3, 3, 109, 29047611873442575647497758179] (by decide +kernel)
    (by decide +kernel) (by decide +kernel) (by decide +kernel) (by decide +kernel) <|
    List.forall_mem_cons.2 ⟨prime_2,
    List.forall_mem_cons.2 ⟨prime_2,
    List.forall_mem_cons.2 ⟨prime_3,
    List.forall_mem_cons.2 ⟨prime_3,
    List.forall_mem_cons.2 ⟨prime_3,
    List.forall_mem_cons.2 ⟨prime_109,
    List.forall_mem_cons.2 ⟨prime_29047611873442575647497758179, List.forall_mem_nil _⟩⟩⟩⟩⟩⟩⟩

theorem prime_120233 : Nat.Prime 120233 := by norm_num

theorem prime_9349 : Nat.Prime 9349 := by norm_num

theorem prime_797 : Nat.Prime 797 := by norm_num

theorem prime_44706919 : Nat.Prime 44706919 :=
  Pratt.prime_of_list (a := 6) 26 [2, 3, 797, 9349] (by decide +kernel)
    (by decide +kernel) (by decide +kernel) (by decide +kernel) (by decide +kernel) <|
    List.forall_mem_cons.2 ⟨prime_2,
    List.forall_mem_cons.2 ⟨prime_3,
    List.forall_mem_cons.2 ⟨prime_797,
    List.forall_mem_cons.2 ⟨prime_9349, List.forall_mem_nil _⟩⟩⟩⟩

theorem prime_4051 : Nat.Prime 4051 := by norm_num

theorem prime_17 : Nat.Prime 17 := by norm_num

theorem prime_174723607534414371449 : Nat.Prime 174723607534414371449 :=
  Pratt.prime_of_list (a := 3) 68 [2, 2, 2, 17, 59, 4051, 120233, 44706919] (by decide +kernel)
    (by decide +kernel) (by decide +kernel) (by decide +kernel) (by decide +kernel) <|
    List.forall_mem_cons.2 ⟨prime_2,
    List.forall_mem_cons.2 ⟨prime_2,
    List.forall_mem_cons.2 ⟨prime_2,
    List.forall_mem_cons.2 ⟨prime_17,
    List.forall_mem_cons.2 ⟨prime_59,
    List.forall_mem_cons.2 ⟨prime_4051,
    List.forall_mem_cons.2 ⟨prime_120233,
    List.forall_mem_cons.2 ⟨prime_44706919, List.forall_mem_nil _⟩⟩⟩⟩⟩⟩⟩⟩

theorem prime_2011 : Nat.Prime 2011 := by norm_num

theorem prime_97 : Nat.Prime 97 := by norm_num

theorem prime_4681609 : Nat.Prime 4681609 :=
  Pratt.prime_of_list (a := 23) 23 [2, 2, 2, 3, 97, 2011] (by decide +kernel)
    (by decide +kernel) (by decide +kernel) (by decide +kernel) (by decide +kernel) <|
    List.forall_mem_cons.2 ⟨prime_2,
    List.forall_mem_cons.2 ⟨prime_2,
    List.forall_mem_cons.2 ⟨prime_2,
    List.forall_mem_cons.2 ⟨prime_3,
    List.forall_mem_cons.2 ⟨prime_97,
    List.forall_mem_cons.2 ⟨prime_2011, List.forall_mem_nil _⟩⟩⟩⟩⟩⟩

theorem prime_85831 : Nat.Prime 85831 := by norm_num

theorem prime_16699 : Nat.Prime 16699 := by norm_num

theorem prime_107361793816595537 : Nat.Prime 107361793816595537 :=
  Pratt.prime_of_list (a := 3) 57 [2, 2, 2, 2, 16699, 85831, 4681609] (by decide +kernel)
    (by decide +kernel) (by decide +kernel) (by decide +kernel) (by decide +kernel) <|
    List.forall_mem_cons.2 ⟨prime_2,
    List.forall_mem_cons.2 ⟨prime_2,
    List.forall_mem_cons.2 ⟨prime_2,
    List.forall_mem_cons.2 ⟨prime_2,
    List.forall_mem_cons.2 ⟨prime_16699,
    List.forall_mem_cons.2 ⟨prime_85831,
    List.forall_mem_cons.2 ⟨prime_4681609, List.forall_mem_nil _⟩⟩⟩⟩⟩⟩⟩

theorem prime_115792089237316195423570985008687907852837564279074904382605163141518161494337 : Nat.Prime 115792089237316195423570985008687907852837564279074904382605163141518161494337 :=
  Pratt.prime_of_list (a := 7) 256 [2, 2, 2, 2, 2, 2, 3, 149, 631, 107361793816595537, 174723607534414371449, 341948486974166000522343609283189] (by decide +kernel)
    (by decide +kernel) (by decide +kernel) (by decide +kernel) (by decide +kernel) <|
    List.forall_mem_cons.2 ⟨prime_2,
    List.forall_mem_cons.2 ⟨prime_2,
    List.forall_mem_cons.2 ⟨prime_2,
    List.forall_mem_cons.2 ⟨prime_2,
    List.forall_mem_cons.2 ⟨prime_2,
    List.forall_mem_cons.2 ⟨prime_2,
    List.forall_mem_cons.2 ⟨prime_3,
    List.forall_mem_cons.2 ⟨prime_149,
    List.forall_mem_cons.2 ⟨prime_631,
    List.forall_mem_cons.2 ⟨prime_107361793816595537,
    List.forall_mem_cons.2 ⟨prime_174723607534414371449,
    List.forall_mem_cons.2 ⟨prime_341948486974166000522343609283189, List.forall_mem_nil _⟩⟩⟩⟩⟩⟩⟩⟩⟩⟩⟩⟩

/-- The field characteristic -/
def p : ℕ := 2 ^ 256 - 2 ^ 32 - 977

/-- The group order -/
def n : ℕ := 0xFFFFFFFFFFFFFFFFFFFFFFFFFFFFFFFEBAAEDCE6AF48A03BBFD25E8CD0364141

theorem p_prime : p.Prime := prime_115792089237316195423570985008687907853269984665640564039457584007908834671663

theorem n_prime : n.Prime := prime_115792089237316195423570985008687907852837564279074904382605163141518161494337

end Verif.Secp256k1
