import Verif.Proofs.PrimeCert
import Verif.Spec.Curves
/-! # Primality certificates (generated by tools/gen_primes.py) -/
namespace Verif
open Spec

theorem prime_2 : Nat.Prime 2 := by norm_num
theorem prime_43 : Nat.Prime 43 := by norm_num
theorem prime_30223 : Nat.Prime 30223 := by norm_num
theorem prime_13 : Nat.Prime 13 := by norm_num
theorem prime_1213 : Nat.Prime 1213 := by norm_num
theorem prime_71209 : Nat.Prime 71209 := by norm_num
theorem prime_3 : Nat.Prime 3 := by norm_num
theorem prime_7 : Nat.Prime 7 := by norm_num
theorem prime_11 : Nat.Prime 11 := by norm_num
theorem prime_823 : Nat.Prime 823 := by norm_num
theorem prime_34511 : Nat.Prime 34511 := by norm_num
theorem prime_363761 : Nat.Prime 363761 := by norm_num
theorem prime_4773264379806847 : Nat.Prime 4773264379806847 := by
  refine lucas_cert _ 3 [2, 3, 7, 11, 823, 34511, 363761] ?_ (by decide +kernel)
  simp only [List.forall_mem_cons]
  exact ⟨prime_2, prime_3, prime_7, prime_11, prime_823, prime_34511, prime_363761, by simp⟩
theorem prime_54983 : Nat.Prime 54983 := by norm_num
theorem prime_3079049 : Nat.Prime 3079049 := pock_cert _ 2 54983 prime_54983 (by decide +kernel)
theorem prime_6158099 : Nat.Prime 6158099 := pock_cert _ 2 3079049 prime_3079049 (by decide +kernel)
theorem prime_66013261729388519804782124120027 : Nat.Prime 66013261729388519804782124120027 := by
  refine lucas_cert _ 2 [2, 13, 1213, 71209, 6158099, 4773264379806847] ?_ (by decide +kernel)
  simp only [List.forall_mem_cons]
  exact ⟨prime_2, prime_13, prime_1213, prime_71209, prime_6158099, prime_4773264379806847, by simp⟩
theorem prime_367 : Nat.Prime 367 := by norm_num
theorem prime_2473 : Nat.Prime 2473 := by norm_num
theorem prime_67 : Nat.Prime 67 := by norm_num
theorem prime_79 : Nat.Prime 79 := by norm_num
theorem prime_97 : Nat.Prime 97 := by norm_num
theorem prime_8214737 : Nat.Prime 8214737 := by
  refine lucas_cert _ 3 [2, 2, 2, 2, 67, 79, 97] ?_ (by decide +kernel)
  simp only [List.forall_mem_cons]
  exact ⟨prime_2, prime_2, prime_2, prime_2, prime_67, prime_79, prime_97, by simp⟩
theorem prime_417514796639753 : Nat.Prime 417514796639753 := by
  refine lucas_cert _ 3 [2, 2, 2, 7, 367, 2473, 8214737] ?_ (by decide +kernel)
  simp only [List.forall_mem_cons]
  exact ⟨prime_2, prime_2, prime_2, prime_7, prime_367, prime_2473, prime_8214737, by simp⟩
theorem prime_337 : Nat.Prime 337 := by norm_num
theorem prime_5711 : Nat.Prime 5711 := by norm_num
theorem prime_3017783777 : Nat.Prime 3017783777 := by
  refine lucas_cert _ 3 [2, 2, 2, 2, 2, 7, 7, 337, 5711] ?_ (by decide +kernel)
  simp only [List.forall_mem_cons]
  exact ⟨prime_2, prime_2, prime_2, prime_2, prime_2, prime_7, prime_7, prime_337, prime_5711, by simp⟩
theorem prime_4641351449027 : Nat.Prime 4641351449027 := pock_cert _ 2 3017783777 prime_3017783777 (by decide +kernel)
theorem prime_61 : Nat.Prime 61 := by norm_num
theorem prime_5303 : Nat.Prime 5303 := by norm_num
theorem prime_179429 : Nat.Prime 179429 := by norm_num
theorem prime_348253387243 : Nat.Prime 348253387243 := by
  refine lucas_cert _ 3 [2, 3, 61, 5303, 179429] ?_ (by decide +kernel)
  simp only [List.forall_mem_cons]
  exact ⟨prime_2, prime_3, prime_61, prime_5303, prime_179429, by simp⟩
theorem sm2p_prime : Nat.Prime sm2p := by
  refine lucas_cert _ 13 [2, 43, 30223, 348253387243, 4641351449027, 417514796639753, 66013261729388519804782124120027] ?_ (by decide +kernel)
  simp only [List.forall_mem_cons]
  exact ⟨prime_2, prime_43, prime_30223, prime_348253387243, prime_4641351449027, prime_417514796639753, prime_66013261729388519804782124120027, by simp⟩
theorem prime_5801 : Nat.Prime 5801 := by norm_num
theorem prime_9061163 : Nat.Prime 9061163 := pock_cert _ 2 5801 prime_5801 (by decide +kernel)
theorem prime_5636460199499 : Nat.Prime 5636460199499 := pock_cert _ 2 9061163 prime_9061163 (by decide +kernel)
theorem prime_101456283590983 : Nat.Prime 101456283590983 := pock_cert _ 2 5636460199499 prime_5636460199499 (by decide +kernel)
theorem prime_12149 : Nat.Prime 12149 := by norm_num
theorem prime_107615843 : Nat.Prime 107615843 := pock_cert _ 2 12149 prime_12149 (by decide +kernel)
theorem prime_84163 : Nat.Prime 84163 := by norm_num
theorem prime_2566129871 : Nat.Prime 2566129871 := pock_cert _ 2 84163 prime_84163 (by decide +kernel)
theorem prime_71 : Nat.Prime 71 := by norm_num
theorem prime_181 : Nat.Prime 181 := by norm_num
theorem prime_233 : Nat.Prime 233 := by norm_num
theorem prime_17965699 : Nat.Prime 17965699 := by
  refine lucas_cert _ 2 [2, 3, 71, 181, 233] ?_ (by decide +kernel)
  simp only [List.forall_mem_cons]
  exact ⟨prime_2, prime_3, prime_71, prime_181, prime_233, by simp⟩
theorem prime_18120927127286907576013935251791662753637 : Nat.Prime 18120927127286907576013935251791662753637 := by
  refine lucas_cert _ 6 [2, 2, 3, 3, 17965699, 107615843, 2566129871, 101456283590983] ?_ (by decide +kernel)
  simp only [List.forall_mem_cons]
  exact ⟨prime_2, prime_2, prime_3, prime_3, prime_17965699, prime_107615843, prime_2566129871, prime_101456283590983, by simp⟩
theorem prime_125197554539772723432468576818475380947471091418362477724521 : Nat.Prime 125197554539772723432468576818475380947471091418362477724521 := pock_cert _ 2 18120927127286907576013935251791662753637 prime_18120927127286907576013935251791662753637 (by decide +kernel)
theorem sm2n_prime : Nat.Prime sm2n := pock_cert _ 2 125197554539772723432468576818475380947471091418362477724521 prime_125197554539772723432468576818475380947471091418362477724521 (by decide +kernel)
theorem prime_29 : Nat.Prime 29 := by norm_num
theorem prime_47 : Nat.Prime 47 := by norm_num
theorem prime_5 : Nat.Prime 5 := by norm_num
theorem prime_82067 : Nat.Prime 82067 := by norm_num
theorem prime_231901 : Nat.Prime 231901 := by norm_num
theorem prime_26643987113801 : Nat.Prime 26643987113801 := by
  refine lucas_cert _ 3 [2, 2, 2, 5, 5, 7, 82067, 231901] ?_ (by decide +kernel)
  simp only [List.forall_mem_cons]
  exact ⟨prime_2, prime_2, prime_2, prime_5, prime_5, prime_7, prime_82067, prime_231901, by simp⟩
theorem prime_53287974227603 : Nat.Prime 53287974227603 := pock_cert _ 2 26643987113801 prime_26643987113801 (by decide +kernel)
theorem prime_639455690731237 : Nat.Prime 639455690731237 := pock_cert _ 2 53287974227603 prime_53287974227603 (by decide +kernel)
theorem prime_63945569073123701 : Nat.Prime 63945569073123701 := pock_cert _ 2 639455690731237 prime_639455690731237 (by decide +kernel)
theorem prime_94401434677189000286356532089 : Nat.Prime 94401434677189000286356532089 := pock_cert _ 2 63945569073123701 prime_63945569073123701 (by decide +kernel)
theorem prime_376889 : Nat.Prime 376889 := by norm_num
theorem prime_163569827 : Nat.Prime 163569827 := pock_cert _ 2 376889 prime_376889 (by decide +kernel)
theorem prime_2289977579 : Nat.Prime 2289977579 := pock_cert _ 2 163569827 prime_163569827 (by decide +kernel)
theorem prime_11101811302993 : Nat.Prime 11101811302993 := pock_cert _ 2 2289977579 prime_2289977579 (by decide +kernel)
theorem prime_389917816583720147 : Nat.Prime 389917816583720147 := pock_cert _ 2 11101811302993 prime_11101811302993 (by decide +kernel)
theorem prime_8179 : Nat.Prime 8179 := by norm_num
theorem prime_17539 : Nat.Prime 17539 := by norm_num
theorem prime_1434514811 : Nat.Prime 1434514811 := by
  refine lucas_cert _ 2 [2, 5, 8179, 17539] ?_ (by decide +kernel)
  simp only [List.forall_mem_cons]
  exact ⟨prime_2, prime_5, prime_8179, prime_17539, by simp⟩
theorem prime_17214177733 : Nat.Prime 17214177733 := pock_cert _ 2 1434514811 prime_1434514811 (by decide +kernel)
theorem prime_1548931712415341 : Nat.Prime 1548931712415341 := pock_cert _ 2 17214177733 prime_17214177733 (by decide +kernel)
theorem prime_461 : Nat.Prime 461 := by norm_num
theorem prime_9433 : Nat.Prime 9433 := by norm_num
theorem prime_287008459 : Nat.Prime 287008459 := by
  refine lucas_cert _ 3 [2, 3, 11, 461, 9433] ?_ (by decide +kernel)
  simp only [List.forall_mem_cons]
  exact ⟨prime_2, prime_3, prime_11, prime_461, prime_9433, by simp⟩
theorem prime_1148033837 : Nat.Prime 1148033837 := pock_cert _ 2 287008459 prime_287008459 (by decide +kernel)
theorem sm9p_prime : Nat.Prime sm9p := by
  refine lucas_cert _ 2 [2, 2, 3, 7, 11, 29, 47, 1148033837, 1548931712415341, 389917816583720147, 94401434677189000286356532089] ?_ (by decide +kernel)
  simp only [List.forall_mem_cons]
  exact ⟨prime_2, prime_2, prime_3, prime_7, prime_11, prime_29, prime_47, prime_1148033837, prime_1548931712415341, prime_389917816583720147, prime_94401434677189000286356532089, by simp⟩
theorem prime_17 : Nat.Prime 17 := by norm_num
theorem prime_37 : Nat.Prime 37 := by norm_num
theorem prime_41 : Nat.Prime 41 := by norm_num
theorem prime_113 : Nat.Prime 113 := by norm_num
theorem prime_2689 : Nat.Prime 2689 := by norm_num
theorem prime_5479 : Nat.Prime 5479 := by norm_num
theorem prime_1271129 : Nat.Prime 1271129 := pock_cert _ 2 5479 prime_5479 (by decide +kernel)
theorem prime_27725865749 : Nat.Prime 27725865749 := pock_cert _ 2 1271129 prime_1271129 (by decide +kernel)
theorem prime_267554604477851 : Nat.Prime 267554604477851 := pock_cert _ 2 27725865749 prime_27725865749 (by decide +kernel)
theorem prime_3080243406351642671208773 : Nat.Prime 3080243406351642671208773 := pock_cert _ 2 267554604477851 prime_267554604477851 (by decide +kernel)
theorem prime_1986114220967214475817859646585100848354345103812102768231 : Nat.Prime 1986114220967214475817859646585100848354345103812102768231 := by
  refine lucas_cert _ 3 [2, 3, 5, 7, 11, 13, 17, 29, 37, 41, 61, 113, 2689, 1548931712415341, 3080243406351642671208773] ?_ (by decide +kernel)
  simp only [List.forall_mem_cons]
  exact ⟨prime_2, prime_3, prime_5, prime_7, prime_11, prime_13, prime_17, prime_29, prime_37, prime_41, prime_61, prime_113, prime_2689, prime_1548931712415341, prime_3080243406351642671208773, by simp⟩
theorem sm9n_prime : Nat.Prime sm9n := pock_cert _ 2 1986114220967214475817859646585100848354345103812102768231 prime_1986114220967214475817859646585100848354345103812102768231 (by decide +kernel)

end Verif
