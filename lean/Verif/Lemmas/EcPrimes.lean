import Verif.Lemmas.Pocklington

/-! Primality of the field and group orders of the curves (generated certificates). -/

namespace EcPrime

theorem prime_11 : Nat.Prime 11 := by norm_num
theorem prime_23 : Nat.Prime 23 := by norm_num
theorem prime_107 : Nat.Prime 107 := by norm_num
theorem prime_204061199 : Nat.Prime 204061199 :=
  Pock.prime_of_check 204061199 3 [11, 23, 107]
    (by simp only [List.forall_mem_cons, List.not_mem_nil, false_imp_iff, implies_true, and_true]; exact ⟨prime_11, prime_23, prime_107⟩)
    (by decide +kernel)
theorem prime_34282281433 : Nat.Prime 34282281433 :=
  Pock.prime_of_check 34282281433 2 [204061199]
    (by simp only [List.forall_mem_cons, List.not_mem_nil, false_imp_iff, implies_true, and_true]; exact prime_204061199)
    (by decide +kernel)
theorem prime_53 : Nat.Prime 53 := by norm_num
theorem prime_173 : Nat.Prime 173 := by norm_num
theorem prime_197 : Nat.Prime 197 := by norm_num
theorem prime_66417393611 : Nat.Prime 66417393611 :=
  Pock.prime_of_check 66417393611 2 [53, 173, 197]
    (by simp only [List.forall_mem_cons, List.not_mem_nil, false_imp_iff, implies_true, and_true]; exact ⟨prime_53, prime_173, prime_197⟩)
    (by decide +kernel)
theorem prime_11290956913871 : Nat.Prime 11290956913871 :=
  Pock.prime_of_check 11290956913871 2 [66417393611]
    (by simp only [List.forall_mem_cons, List.not_mem_nil, false_imp_iff, implies_true, and_true]; exact prime_66417393611)
    (by decide +kernel)
theorem prime_774023187263532362759620327192479577272145303 : Nat.Prime 774023187263532362759620327192479577272145303 :=
  Pock.prime_of_check 774023187263532362759620327192479577272145303 2 [34282281433, 11290956913871]
    (by simp only [List.forall_mem_cons, List.not_mem_nil, false_imp_iff, implies_true, and_true]; exact ⟨prime_34282281433, prime_11290956913871⟩)
    (by decide +kernel)
theorem prime_835945042244614951780389953367877943453916927241 : Nat.Prime 835945042244614951780389953367877943453916927241 :=
  Pock.prime_of_check 835945042244614951780389953367877943453916927241 2 [774023187263532362759620327192479577272145303]
    (by simp only [List.forall_mem_cons, List.not_mem_nil, false_imp_iff, implies_true, and_true]; exact prime_774023187263532362759620327192479577272145303)
    (by decide +kernel)
theorem prime_115792089210356248762697446949407573530086143415290314195533631308867097853951 : Nat.Prime 115792089210356248762697446949407573530086143415290314195533631308867097853951 :=
  Pock.prime_of_check 115792089210356248762697446949407573530086143415290314195533631308867097853951 2 [835945042244614951780389953367877943453916927241]
    (by simp only [List.forall_mem_cons, List.not_mem_nil, false_imp_iff, implies_true, and_true]; exact prime_835945042244614951780389953367877943453916927241)
    (by decide +kernel)
theorem prime_8389 : Nat.Prime 8389 := by norm_num
theorem prime_38557 : Nat.Prime 38557 := by norm_num
theorem prime_312289 : Nat.Prime 312289 := by norm_num
theorem prime_59 : Nat.Prime 59 := by norm_num
theorem prime_599 : Nat.Prime 599 := by norm_num
theorem prime_513928823 : Nat.Prime 513928823 :=
  Pock.prime_of_check 513928823 2 [59, 599]
    (by simp only [List.forall_mem_cons, List.not_mem_nil, false_imp_iff, implies_true, and_true]; exact ⟨prime_59, prime_599⟩)
    (by decide +kernel)
theorem prime_53448597593 : Nat.Prime 53448597593 :=
  Pock.prime_of_check 53448597593 2 [513928823]
    (by simp only [List.forall_mem_cons, List.not_mem_nil, false_imp_iff, implies_true, and_true]; exact prime_513928823)
    (by decide +kernel)
theorem prime_1357291859799823621 : Nat.Prime 1357291859799823621 :=
  Pock.prime_of_check 1357291859799823621 2 [53448597593]
    (by simp only [List.forall_mem_cons, List.not_mem_nil, false_imp_iff, implies_true, and_true]; exact prime_53448597593)
    (by decide +kernel)
theorem prime_7 : Nat.Prime 7 := by norm_num
theorem prime_181 : Nat.Prime 181 := by norm_num
theorem prime_5 : Nat.Prime 5 := by norm_num
theorem prime_19 : Nat.Prime 19 := by norm_num
theorem prime_211 : Nat.Prime 211 := by norm_num
theorem prime_105957871 : Nat.Prime 105957871 :=
  Pock.prime_of_check 105957871 2 [5, 19, 211]
    (by simp only [List.forall_mem_cons, List.not_mem_nil, false_imp_iff, implies_true, and_true]; exact ⟨prime_5, prime_19, prime_211⟩)
    (by decide +kernel)
theorem prime_529709925838459440593 : Nat.Prime 529709925838459440593 :=
  Pock.prime_of_check 529709925838459440593 2 [7, 181, 105957871]
    (by simp only [List.forall_mem_cons, List.not_mem_nil, false_imp_iff, implies_true, and_true]; exact ⟨prime_7, prime_181, prime_105957871⟩)
    (by decide +kernel)
theorem prime_19173790298027098165721053155794528970226934547887232785722672956982046098136719667167519737147526097 : Nat.Prime 19173790298027098165721053155794528970226934547887232785722672956982046098136719667167519737147526097 :=
  Pock.prime_of_check 19173790298027098165721053155794528970226934547887232785722672956982046098136719667167519737147526097 2 [8389, 38557, 312289, 1357291859799823621, 529709925838459440593]
    (by simp only [List.forall_mem_cons, List.not_mem_nil, false_imp_iff, implies_true, and_true]; exact ⟨prime_8389, prime_38557, prime_312289, prime_1357291859799823621, prime_529709925838459440593⟩)
    (by decide +kernel)
theorem prime_39402006196394479212279040100143613805079739270465446667948293404245721771496870329047266088258938001861606973112319 : Nat.Prime 39402006196394479212279040100143613805079739270465446667948293404245721771496870329047266088258938001861606973112319 :=
  Pock.prime_of_check 39402006196394479212279040100143613805079739270465446667948293404245721771496870329047266088258938001861606973112319 2 [19173790298027098165721053155794528970226934547887232785722672956982046098136719667167519737147526097]
    (by simp only [List.forall_mem_cons, List.not_mem_nil, false_imp_iff, implies_true, and_true]; exact prime_19173790298027098165721053155794528970226934547887232785722672956982046098136719667167519737147526097)
    (by decide +kernel)
theorem prime_3 : Nat.Prime 3 := by norm_num
theorem prime_61 : Nat.Prime 61 := by norm_num
theorem prime_5303 : Nat.Prime 5303 := by norm_num
theorem prime_348253387243 : Nat.Prime 348253387243 :=
  Pock.prime_of_check 348253387243 3 [3, 61, 5303]
    (by simp only [List.forall_mem_cons, List.not_mem_nil, false_imp_iff, implies_true, and_true]; exact ⟨prime_3, prime_61, prime_5303⟩)
    (by decide +kernel)
theorem prime_2 : Nat.Prime 2 := by norm_num
theorem prime_337 : Nat.Prime 337 := by norm_num
theorem prime_3017783777 : Nat.Prime 3017783777 :=
  Pock.prime_of_check 3017783777 3 [2, 2, 2, 2, 2, 7, 7, 337]
    (by simp only [List.forall_mem_cons, List.not_mem_nil, false_imp_iff, implies_true, and_true]; exact ⟨prime_2, prime_2, prime_2, prime_2, prime_2, prime_7, prime_7, prime_337⟩)
    (by decide +kernel)
theorem prime_4641351449027 : Nat.Prime 4641351449027 :=
  Pock.prime_of_check 4641351449027 2 [3017783777]
    (by simp only [List.forall_mem_cons, List.not_mem_nil, false_imp_iff, implies_true, and_true]; exact prime_3017783777)
    (by decide +kernel)
theorem prime_367 : Nat.Prime 367 := by norm_num
theorem prime_2473 : Nat.Prime 2473 := by norm_num
theorem prime_417514796639753 : Nat.Prime 417514796639753 :=
  Pock.prime_of_check 417514796639753 3 [2, 2, 2, 7, 367, 2473]
    (by simp only [List.forall_mem_cons, List.not_mem_nil, false_imp_iff, implies_true, and_true]; exact ⟨prime_2, prime_2, prime_2, prime_7, prime_367, prime_2473⟩)
    (by decide +kernel)
theorem prime_115792089210356248756420345214020892766250353991924191454421193933289684991999 : Nat.Prime 115792089210356248756420345214020892766250353991924191454421193933289684991999 :=
  Pock.prime_of_check 115792089210356248756420345214020892766250353991924191454421193933289684991999 2 [348253387243, 4641351449027, 417514796639753]
    (by simp only [List.forall_mem_cons, List.not_mem_nil, false_imp_iff, implies_true, and_true]; exact ⟨prime_348253387243, prime_4641351449027, prime_417514796639753⟩)
    (by decide +kernel)
theorem prime_353 : Nat.Prime 353 := by norm_num
theorem prime_57467 : Nat.Prime 57467 := by norm_num
theorem prime_132049 : Nat.Prime 132049 := by norm_num
theorem prime_3727 : Nat.Prime 3727 := by norm_num
theorem prime_1923133 : Nat.Prime 1923133 :=
  Pock.prime_of_check 1923133 2 [3727]
    (by simp only [List.forall_mem_cons, List.not_mem_nil, false_imp_iff, implies_true, and_true]; exact prime_3727)
    (by decide +kernel)
theorem prime_31 : Nat.Prime 31 := by norm_num
theorem prime_223 : Nat.Prime 223 := by norm_num
theorem prime_4153 : Nat.Prime 4153 := by norm_num
theorem prime_31757755568855353 : Nat.Prime 31757755568855353 :=
  Pock.prime_of_check 31757755568855353 2 [31, 107, 223, 4153]
    (by simp only [List.forall_mem_cons, List.not_mem_nil, false_imp_iff, implies_true, and_true]; exact ⟨prime_31, prime_107, prime_223, prime_4153⟩)
    (by decide +kernel)
theorem prime_74058212732561358302231226437062788676166966415465897661863160754340907 : Nat.Prime 74058212732561358302231226437062788676166966415465897661863160754340907 :=
  Pock.prime_of_check 74058212732561358302231226437062788676166966415465897661863160754340907 2 [3, 353, 57467, 132049, 1923133, 31757755568855353]
    (by simp only [List.forall_mem_cons, List.not_mem_nil, false_imp_iff, implies_true, and_true]; exact ⟨prime_3, prime_353, prime_57467, prime_132049, prime_1923133, prime_31757755568855353⟩)
    (by decide +kernel)
theorem prime_57896044618658097711785492504343953926634992332820282019728792003956564819949 : Nat.Prime 57896044618658097711785492504343953926634992332820282019728792003956564819949 :=
  Pock.prime_of_check 57896044618658097711785492504343953926634992332820282019728792003956564819949 2 [74058212732561358302231226437062788676166966415465897661863160754340907]
    (by simp only [List.forall_mem_cons, List.not_mem_nil, false_imp_iff, implies_true, and_true]; exact prime_74058212732561358302231226437062788676166966415465897661863160754340907)
    (by decide +kernel)
theorem prime_411743 : Nat.Prime 411743 := by norm_num
theorem prime_1469495262398780123809 : Nat.Prime 1469495262398780123809 :=
  Pock.prime_of_check 1469495262398780123809 17 [2, 2, 2, 2, 2, 7, 7, 223, 411743]
    (by simp only [List.forall_mem_cons, List.not_mem_nil, false_imp_iff, implies_true, and_true]; exact ⟨prime_2, prime_2, prime_2, prime_2, prime_2, prime_7, prime_7, prime_223, prime_411743⟩)
    (by decide +kernel)
theorem prime_67 : Nat.Prime 67 := by norm_num
theorem prime_271 : Nat.Prime 271 := by norm_num
theorem prime_97859369123353 : Nat.Prime 97859369123353 :=
  Pock.prime_of_check 97859369123353 2 [3, 3, 67, 197, 271]
    (by simp only [List.forall_mem_cons, List.not_mem_nil, false_imp_iff, implies_true, and_true]; exact ⟨prime_3, prime_3, prime_67, prime_197, prime_271⟩)
    (by decide +kernel)
theorem prime_167773885276849215533569 : Nat.Prime 167773885276849215533569 :=
  Pock.prime_of_check 167773885276849215533569 3 [97859369123353]
    (by simp only [List.forall_mem_cons, List.not_mem_nil, false_imp_iff, implies_true, and_true]; exact prime_97859369123353)
    (by decide +kernel)
theorem prime_217003 : Nat.Prime 217003 := by norm_num
theorem prime_1764234391 : Nat.Prime 1764234391 :=
  Pock.prime_of_check 1764234391 2 [217003]
    (by simp only [List.forall_mem_cons, List.not_mem_nil, false_imp_iff, implies_true, and_true]; exact prime_217003)
    (by decide +kernel)
theorem prime_34741861125639557 : Nat.Prime 34741861125639557 :=
  Pock.prime_of_check 34741861125639557 2 [1764234391]
    (by simp only [List.forall_mem_cons, List.not_mem_nil, false_imp_iff, implies_true, and_true]; exact prime_1764234391)
    (by decide +kernel)
theorem prime_36131535570665139281 : Nat.Prime 36131535570665139281 :=
  Pock.prime_of_check 36131535570665139281 2 [34741861125639557]
    (by simp only [List.forall_mem_cons, List.not_mem_nil, false_imp_iff, implies_true, and_true]; exact prime_34741861125639557)
    (by decide +kernel)
theorem prime_596242599987116128415063 : Nat.Prime 596242599987116128415063 :=
  Pock.prime_of_check 596242599987116128415063 3 [36131535570665139281]
    (by simp only [List.forall_mem_cons, List.not_mem_nil, false_imp_iff, implies_true, and_true]; exact prime_36131535570665139281)
    (by decide +kernel)
theorem prime_726838724295606890549323807888004534353641360687318060281490199180612328166730772686396383698676545930088884461843637361053498018365439 : Nat.Prime 726838724295606890549323807888004534353641360687318060281490199180612328166730772686396383698676545930088884461843637361053498018365439 :=
  Pock.prime_of_check 726838724295606890549323807888004534353641360687318060281490199180612328166730772686396383698676545930088884461843637361053498018365439 2 [1469495262398780123809, 167773885276849215533569, 596242599987116128415063]
    (by simp only [List.forall_mem_cons, List.not_mem_nil, false_imp_iff, implies_true, and_true]; exact ⟨prime_1469495262398780123809, prime_167773885276849215533569, prime_596242599987116128415063⟩)
    (by decide +kernel)
theorem prime_3407 : Nat.Prime 3407 := by norm_num
theorem prime_17449 : Nat.Prime 17449 := by norm_num
theorem prime_38189 : Nat.Prime 38189 := by norm_num
theorem prime_17 : Nat.Prime 17 := by norm_num
theorem prime_229 : Nat.Prime 229 := by norm_num
theorem prime_9350987 : Nat.Prime 9350987 :=
  Pock.prime_of_check 9350987 2 [17, 229]
    (by simp only [List.forall_mem_cons, List.not_mem_nil, false_imp_iff, implies_true, and_true]; exact ⟨prime_17, prime_229⟩)
    (by decide +kernel)
theorem prime_187019741 : Nat.Prime 187019741 :=
  Pock.prime_of_check 187019741 2 [9350987]
    (by simp only [List.forall_mem_cons, List.not_mem_nil, false_imp_iff, implies_true, and_true]; exact prime_9350987)
    (by decide +kernel)
theorem prime_29 : Nat.Prime 29 := by norm_num
theorem prime_311245691 : Nat.Prime 311245691 :=
  Pock.prime_of_check 311245691 2 [7, 17, 29, 29]
    (by simp only [List.forall_mem_cons, List.not_mem_nil, false_imp_iff, implies_true, and_true]; exact ⟨prime_7, prime_17, prime_29, prime_29⟩)
    (by decide +kernel)
theorem prime_622491383 : Nat.Prime 622491383 :=
  Pock.prime_of_check 622491383 2 [311245691]
    (by simp only [List.forall_mem_cons, List.not_mem_nil, false_imp_iff, implies_true, and_true]; exact prime_311245691)
    (by decide +kernel)
theorem prime_104471 : Nat.Prime 104471 := by norm_num
theorem prime_3969899 : Nat.Prime 3969899 :=
  Pock.prime_of_check 3969899 2 [104471]
    (by simp only [List.forall_mem_cons, List.not_mem_nil, false_imp_iff, implies_true, and_true]; exact prime_104471)
    (by decide +kernel)
theorem prime_1002328039319 : Nat.Prime 1002328039319 :=
  Pock.prime_of_check 1002328039319 2 [3969899]
    (by simp only [List.forall_mem_cons, List.not_mem_nil, false_imp_iff, implies_true, and_true]; exact prime_3969899)
    (by decide +kernel)
theorem prime_115792089210356248762697446949407573529996955224135760342422259061068512044369 : Nat.Prime 115792089210356248762697446949407573529996955224135760342422259061068512044369 :=
  Pock.prime_of_check 115792089210356248762697446949407573529996955224135760342422259061068512044369 2 [3407, 17449, 38189, 187019741, 622491383, 1002328039319]
    (by simp only [List.forall_mem_cons, List.not_mem_nil, false_imp_iff, implies_true, and_true]; exact ⟨prime_3407, prime_17449, prime_38189, prime_187019741, prime_622491383, prime_1002328039319⟩)
    (by decide +kernel)
theorem prime_251 : Nat.Prime 251 := by norm_num
theorem prime_248431 : Nat.Prime 248431 := by norm_num
theorem prime_37447 : Nat.Prime 37447 := by norm_num
theorem prime_8463023 : Nat.Prime 8463023 :=
  Pock.prime_of_check 8463023 2 [37447]
    (by simp only [List.forall_mem_cons, List.not_mem_nil, false_imp_iff, implies_true, and_true]; exact prime_37447)
    (by decide +kernel)
theorem prime_311 : Nat.Prime 311 := by norm_num
theorem prime_9863677 : Nat.Prime 9863677 :=
  Pock.prime_of_check 9863677 5 [2, 2, 3, 3, 311]
    (by simp only [List.forall_mem_cons, List.not_mem_nil, false_imp_iff, implies_true, and_true]; exact ⟨prime_2, prime_2, prime_3, prime_3, prime_311⟩)
    (by decide +kernel)
theorem prime_37344768852931 : Nat.Prime 37344768852931 :=
  Pock.prime_of_check 37344768852931 2 [9863677]
    (by simp only [List.forall_mem_cons, List.not_mem_nil, false_imp_iff, implies_true, and_true]; exact prime_9863677)
    (by decide +kernel)
theorem prime_55942463741690639 : Nat.Prime 55942463741690639 :=
  Pock.prime_of_check 55942463741690639 2 [37344768852931]
    (by simp only [List.forall_mem_cons, List.not_mem_nil, false_imp_iff, implies_true, and_true]; exact prime_37344768852931)
    (by decide +kernel)
theorem prime_1059392654943455286185473617842338478315215895509773412096307 : Nat.Prime 1059392654943455286185473617842338478315215895509773412096307 :=
  Pock.prime_of_check 1059392654943455286185473617842338478315215895509773412096307 2 [251, 248431, 8463023, 55942463741690639]
    (by simp only [List.forall_mem_cons, List.not_mem_nil, false_imp_iff, implies_true, and_true]; exact ⟨prime_251, prime_248431, prime_8463023, prime_55942463741690639⟩)
    (by decide +kernel)
theorem prime_3055465788140352002733946906144561090641249606160407884365391979704929268480326390471 : Nat.Prime 3055465788140352002733946906144561090641249606160407884365391979704929268480326390471 :=
  Pock.prime_of_check 3055465788140352002733946906144561090641249606160407884365391979704929268480326390471 2 [1059392654943455286185473617842338478315215895509773412096307]
    (by simp only [List.forall_mem_cons, List.not_mem_nil, false_imp_iff, implies_true, and_true]; exact prime_1059392654943455286185473617842338478315215895509773412096307)
    (by decide +kernel)
theorem prime_39402006196394479212279040100143613805079739270465446667946905279627659399113263569398956308152294913554433653942643 : Nat.Prime 39402006196394479212279040100143613805079739270465446667946905279627659399113263569398956308152294913554433653942643 :=
  Pock.prime_of_check 39402006196394479212279040100143613805079739270465446667946905279627659399113263569398956308152294913554433653942643 2 [3055465788140352002733946906144561090641249606160407884365391979704929268480326390471]
    (by simp only [List.forall_mem_cons, List.not_mem_nil, false_imp_iff, implies_true, and_true]; exact prime_3055465788140352002733946906144561090641249606160407884365391979704929268480326390471)
    (by decide +kernel)
theorem prime_71 : Nat.Prime 71 := by norm_num
theorem prime_17965699 : Nat.Prime 17965699 :=
  Pock.prime_of_check 17965699 2 [71, 181]
    (by simp only [List.forall_mem_cons, List.not_mem_nil, false_imp_iff, implies_true, and_true]; exact ⟨prime_71, prime_181⟩)
    (by decide +kernel)
theorem prime_12149 : Nat.Prime 12149 := by norm_num
theorem prime_107615843 : Nat.Prime 107615843 :=
  Pock.prime_of_check 107615843 2 [12149]
    (by simp only [List.forall_mem_cons, List.not_mem_nil, false_imp_iff, implies_true, and_true]; exact prime_12149)
    (by decide +kernel)
theorem prime_84163 : Nat.Prime 84163 := by norm_num
theorem prime_2566129871 : Nat.Prime 2566129871 :=
  Pock.prime_of_check 2566129871 2 [84163]
    (by simp only [List.forall_mem_cons, List.not_mem_nil, false_imp_iff, implies_true, and_true]; exact prime_84163)
    (by decide +kernel)
theorem prime_18120927127286907576013935251791662753637 : Nat.Prime 18120927127286907576013935251791662753637 :=
  Pock.prime_of_check 18120927127286907576013935251791662753637 2 [17965699, 107615843, 2566129871]
    (by simp only [List.forall_mem_cons, List.not_mem_nil, false_imp_iff, implies_true, and_true]; exact ⟨prime_17965699, prime_107615843, prime_2566129871⟩)
    (by decide +kernel)
theorem prime_125197554539772723432468576818475380947471091418362477724521 : Nat.Prime 125197554539772723432468576818475380947471091418362477724521 :=
  Pock.prime_of_check 125197554539772723432468576818475380947471091418362477724521 2 [18120927127286907576013935251791662753637]
    (by simp only [List.forall_mem_cons, List.not_mem_nil, false_imp_iff, implies_true, and_true]; exact prime_18120927127286907576013935251791662753637)
    (by decide +kernel)
theorem prime_115792089210356248756420345214020892766061623724957744567843809356293439045923 : Nat.Prime 115792089210356248756420345214020892766061623724957744567843809356293439045923 :=
  Pock.prime_of_check 115792089210356248756420345214020892766061623724957744567843809356293439045923 2 [125197554539772723432468576818475380947471091418362477724521]
    (by simp only [List.forall_mem_cons, List.not_mem_nil, false_imp_iff, implies_true, and_true]; exact prime_125197554539772723432468576818475380947471091418362477724521)
    (by decide +kernel)
theorem prime_531581 : Nat.Prime 531581 := by norm_num
theorem prime_1257559732178653 : Nat.Prime 1257559732178653 :=
  Pock.prime_of_check 1257559732178653 2 [7, 23, 531581]
    (by simp only [List.forall_mem_cons, List.not_mem_nil, false_imp_iff, implies_true, and_true]; exact ⟨prime_7, prime_23, prime_531581⟩)
    (by decide +kernel)
theorem prime_4434155615661930479 : Nat.Prime 4434155615661930479 :=
  Pock.prime_of_check 4434155615661930479 2 [1257559732178653]
    (by simp only [List.forall_mem_cons, List.not_mem_nil, false_imp_iff, implies_true, and_true]; exact prime_1257559732178653)
    (by decide +kernel)
theorem prime_172054593956031949258510691 : Nat.Prime 172054593956031949258510691 :=
  Pock.prime_of_check 172054593956031949258510691 2 [4434155615661930479]
    (by simp only [List.forall_mem_cons, List.not_mem_nil, false_imp_iff, implies_true, and_true]; exact prime_4434155615661930479)
    (by decide +kernel)
theorem prime_19757330305831588566944191468367130476339 : Nat.Prime 19757330305831588566944191468367130476339 :=
  Pock.prime_of_check 19757330305831588566944191468367130476339 2 [172054593956031949258510691]
    (by simp only [List.forall_mem_cons, List.not_mem_nil, false_imp_iff, implies_true, and_true]; exact prime_172054593956031949258510691)
    (by decide +kernel)
theorem prime_276602624281642239937218680557139826668747 : Nat.Prime 276602624281642239937218680557139826668747 :=
  Pock.prime_of_check 276602624281642239937218680557139826668747 2 [19757330305831588566944191468367130476339]
    (by simp only [List.forall_mem_cons, List.not_mem_nil, false_imp_iff, implies_true, and_true]; exact prime_19757330305831588566944191468367130476339)
    (by decide +kernel)
theorem prime_7237005577332262213973186563042994240857116359379907606001950938285454250989 : Nat.Prime 7237005577332262213973186563042994240857116359379907606001950938285454250989 :=
  Pock.prime_of_check 7237005577332262213973186563042994240857116359379907606001950938285454250989 2 [276602624281642239937218680557139826668747]
    (by simp only [List.forall_mem_cons, List.not_mem_nil, false_imp_iff, implies_true, and_true]; exact prime_276602624281642239937218680557139826668747)
    (by decide +kernel)
theorem prime_97 : Nat.Prime 97 := by norm_num
theorem prime_227393 : Nat.Prime 227393 := by norm_num
theorem prime_3009341 : Nat.Prime 3009341 :=
  Pock.prime_of_check 3009341 2 [5, 17, 53]
    (by simp only [List.forall_mem_cons, List.not_mem_nil, false_imp_iff, implies_true, and_true]; exact ⟨prime_5, prime_17, prime_53⟩)
    (by decide +kernel)
theorem prime_766223 : Nat.Prime 766223 := by norm_num
theorem prime_342682509629 : Nat.Prime 342682509629 :=
  Pock.prime_of_check 342682509629 2 [766223]
    (by simp only [List.forall_mem_cons, List.not_mem_nil, false_imp_iff, implies_true, and_true]; exact prime_766223)
    (by decide +kernel)
theorem prime_894613 : Nat.Prime 894613 := by norm_num
theorem prime_3578453 : Nat.Prime 3578453 :=
  Pock.prime_of_check 3578453 2 [894613]
    (by simp only [List.forall_mem_cons, List.not_mem_nil, false_imp_iff, implies_true, and_true]; exact prime_894613)
    (by decide +kernel)
theorem prime_7156907 : Nat.Prime 7156907 :=
  Pock.prime_of_check 7156907 2 [3578453]
    (by simp only [List.forall_mem_cons, List.not_mem_nil, false_imp_iff, implies_true, and_true]; exact prime_3578453)
    (by decide +kernel)
theorem prime_671065561 : Nat.Prime 671065561 :=
  Pock.prime_of_check 671065561 7 [2, 2, 2, 3, 3, 3, 3, 5, 11]
    (by simp only [List.forall_mem_cons, List.not_mem_nil, false_imp_iff, implies_true, and_true]; exact ⟨prime_2, prime_2, prime_2, prime_3, prime_3, prime_3, prime_3, prime_5, prime_11⟩)
    (by decide +kernel)
theorem prime_6730519843040614479184435237013 : Nat.Prime 6730519843040614479184435237013 :=
  Pock.prime_of_check 6730519843040614479184435237013 2 [7156907, 671065561]
    (by simp only [List.forall_mem_cons, List.not_mem_nil, false_imp_iff, implies_true, and_true]; exact ⟨prime_7156907, prime_671065561⟩)
    (by decide +kernel)
theorem prime_181709681073901722637330951972001133588410340171829515070372549795146003961539585716195755291692375963310293709091662304773755859649779 : Nat.Prime 181709681073901722637330951972001133588410340171829515070372549795146003961539585716195755291692375963310293709091662304773755859649779 :=
  Pock.prime_of_check3 181709681073901722637330951972001133588410340171829515070372549795146003961539585716195755291692375963310293709091662304773755859649779 2 214948626715250921853192474484401003600899393333234731301046 [2, 3, 19, 19, 97, 227393, 3009341, 342682509629, 6730519843040614479184435237013]
    (by simp only [List.forall_mem_cons, List.not_mem_nil, false_imp_iff, implies_true, and_true]; exact ⟨prime_2, prime_3, prime_19, prime_19, prime_97, prime_227393, prime_3009341, prime_342682509629, prime_6730519843040614479184435237013⟩)
    (by decide +kernel)

end EcPrime
