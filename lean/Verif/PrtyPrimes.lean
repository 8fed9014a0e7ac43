import Mathlib.NumberTheory.LucasPrimality
import Mathlib.Tactic.NormNum.Prime
/-
Primality of the constants of PRTY (PrtyDefines.h:33-41) and of the numbers needed for it. Helper file; every proof is
a certificate checked by `prime_of_cert`.
-/
namespace Verif.Prty

/-- `a ^ e` modulo `n`, by squaring. -/
def powMod (a n : Nat) : Nat → Nat → Nat
  | 0, _ => 1
  | f + 1, e =>
    if e = 0 then 1
    else if e % 2 = 1 then powMod a n f (e / 2) ^ 2 % n * a % n
    else powMod a n f (e / 2) ^ 2 % n

theorem powMod_eq (a n f e : Nat) (h : e < 2 ^ f) : powMod a n f e % n = a ^ e % n := by
  induction f generalizing e with
  | zero =>
    have : e = 0 := by simpa using h
    subst this; simp [powMod]
  | succ f ih =>
    unfold powMod
    split
    · next h0 => subst h0; simp
    · have h2 : e / 2 < 2 ^ f := by rw [Nat.pow_succ] at h; omega
      have := ih (e / 2) h2
      split
      · next h1 =>
        have he : e = e / 2 * 2 + 1 := by omega
        conv_rhs => rw [he, pow_succ, pow_mul]
        simp only [Nat.mod_mod, Nat.mul_mod, Nat.pow_mod, this]
      · next h1 =>
        have he : e = e / 2 * 2 := by omega
        conv_rhs => rw [he, pow_mul]
        simp only [Nat.mod_mod, Nat.pow_mod, this]

/-- `fs`: prime factors of `p - 1` with exponents, `a` a generator. -/
def checkCert (p a : Nat) (fs : List (Nat × Nat)) : Bool :=
  decide (1 < p) && decide (p - 1 < 2 ^ 256) && decide ((fs.map fun x => x.1 ^ x.2).foldr (· * ·) 1 = p - 1) &&
    decide (powMod a p 256 (p - 1) % p = 1) &&
    fs.all fun x => decide (powMod a p 256 ((p - 1) / x.1) % p ≠ 1)

theorem dvd_foldr {q : Nat} (hq : q.Prime) (fs : List (Nat × Nat)) (h : q ∣ (fs.map fun x => x.1 ^ x.2).foldr (· * ·) 1)
    (hfs : ∀ x ∈ fs, x.1.Prime) : ∃ x ∈ fs, x.1 = q := by
  induction fs with
  | nil =>
    have h1 : q ∣ 1 := h
    exact absurd (Nat.dvd_one.mp h1) hq.one_lt.ne'
  | cons x fs ih =>
    rw [List.map_cons, List.foldr_cons, hq.dvd_mul] at h
    rcases h with h | h
    · have h1 := hq.dvd_of_dvd_pow h
      exact ⟨x, List.mem_cons_self .., ((Nat.prime_dvd_prime_iff_eq hq (hfs x (List.mem_cons_self ..))).mp h1).symm⟩
    · obtain ⟨y, hy, e⟩ := ih h fun y hy => hfs y (List.mem_cons_of_mem _ hy)
      exact ⟨y, List.mem_cons_of_mem _ hy, e⟩

theorem prime_of_cert (p a : Nat) (fs : List (Nat × Nat)) (hfs : ∀ x ∈ fs, x.1.Prime) (h : checkCert p a fs = true) :
    p.Prime := by
  simp only [checkCert, Bool.and_eq_true, decide_eq_true_eq, List.all_eq_true] at h
  obtain ⟨⟨⟨⟨h1, h2⟩, h3⟩, h4⟩, h5⟩ := h
  have key : ∀ e, ((a : ZMod p) ^ e = 1 ↔ a ^ e % p = 1) := by
    intro e
    have hc : ((a : ZMod p) ^ e = 1) ↔ ((a ^ e : Nat) : ZMod p) = ((1 : Nat) : ZMod p) := by
      rw [Nat.cast_pow, Nat.cast_one]
    rw [hc, ZMod.natCast_eq_natCast_iff, Nat.ModEq, Nat.mod_eq_of_lt h1]
  refine lucas_primality p (a : ZMod p) ?_ ?_
  · rw [key, ← powMod_eq a p 256 _ h2]; exact h4
  · intro q hq hd
    rw [← h3] at hd
    obtain ⟨x, hx, rfl⟩ := dvd_foldr hq fs hd hfs
    have := h5 x hx
    rw [Ne, key, ← powMod_eq a p 256 _ (lt_of_le_of_lt (Nat.div_le_self _ _) h2)]
    exact this

theorem forall_nil : ∀ x ∈ ([] : List (Nat × Nat)), x.1.Prime := by simp

theorem forall_cons {q e : Nat} {fs : List (Nat × Nat)} (hq : q.Prime) (h : ∀ x ∈ fs, x.1.Prime) :
    ∀ x ∈ (q, e) :: fs, x.1.Prime := by
  intro x hx
  rcases List.mem_cons.mp hx with rfl | hx
  · exact hq
  · exact h x hx

theorem prime_121181 : Nat.Prime 121181 :=
  prime_of_cert 121181 2 [(2, 2), (5, 1), (73, 1), (83, 1)]
    (forall_cons (by norm_num) (forall_cons (by norm_num) (forall_cons (by norm_num) (forall_cons (by norm_num) forall_nil))))
    (by decide +kernel)

theorem prime_5816689 : Nat.Prime 5816689 :=
  prime_of_cert 5816689 11 [(2, 4), (3, 1), (121181, 1)]
    (forall_cons (by norm_num) (forall_cons (by norm_num) (forall_cons prime_121181 forall_nil)))
    (by decide +kernel)

theorem prime_139591 : Nat.Prime 139591 :=
  prime_of_cert 139591 3 [(2, 1), (3, 3), (5, 1), (11, 1), (47, 1)]
    (forall_cons (by norm_num) (forall_cons (by norm_num) (forall_cons (by norm_num) (forall_cons (by norm_num) (forall_cons (by norm_num) forall_nil)))))
    (by decide +kernel)

theorem prime_27359837 : Nat.Prime 27359837 :=
  prime_of_cert 27359837 2 [(2, 2), (7, 2), (139591, 1)]
    (forall_cons (by norm_num) (forall_cons (by norm_num) (forall_cons prime_139591 forall_nil)))
    (by decide +kernel)

theorem prime_267929 : Nat.Prime 267929 :=
  prime_of_cert 267929 3 [(2, 3), (107, 1), (313, 1)]
    (forall_cons (by norm_num) (forall_cons (by norm_num) (forall_cons (by norm_num) forall_nil)))
    (by decide +kernel)

theorem prime_11947489969 : Nat.Prime 11947489969 :=
  prime_of_cert 11947489969 11 [(2, 4), (3, 1), (929, 1), (267929, 1)]
    (forall_cons (by norm_num) (forall_cons (by norm_num) (forall_cons (by norm_num) (forall_cons prime_267929 forall_nil))))
    (by decide +kernel)

theorem prime_12275703273579557140363 : Nat.Prime 12275703273579557140363 :=
  prime_of_cert 12275703273579557140363 3 [(2, 1), (3, 1), (11, 1), (569, 1), (27359837, 1), (11947489969, 1)]
    (forall_cons (by norm_num) (forall_cons (by norm_num) (forall_cons (by norm_num) (forall_cons (by norm_num) (forall_cons prime_27359837 (forall_cons prime_11947489969 forall_nil))))))
    (by decide +kernel)

theorem prime_340282366920938463463374607431768211507 : Nat.Prime 340282366920938463463374607431768211507 :=
  prime_of_cert 340282366920938463463374607431768211507 2 [(2, 1), (3, 5), (17, 1), (89, 1), (6481, 1), (5816689, 1), (12275703273579557140363, 1)]
    (forall_cons (by norm_num) (forall_cons (by norm_num) (forall_cons (by norm_num) (forall_cons (by norm_num) (forall_cons (by norm_num) (forall_cons prime_5816689 (forall_cons prime_12275703273579557140363 forall_nil)))))))
    (by decide +kernel)

theorem prime_173848897619 : Nat.Prime 173848897619 :=
  prime_of_cert 173848897619 2 [(2, 1), (11, 1), (911, 1), (1291, 1), (6719, 1)]
    (forall_cons (by norm_num) (forall_cons (by norm_num) (forall_cons (by norm_num) (forall_cons (by norm_num) (forall_cons (by norm_num) forall_nil)))))
    (by decide +kernel)

theorem prime_2064247 : Nat.Prime 2064247 :=
  prime_of_cert 2064247 3 [(2, 1), (3, 1), (149, 1), (2309, 1)]
    (forall_cons (by norm_num) (forall_cons (by norm_num) (forall_cons (by norm_num) (forall_cons (by norm_num) forall_nil))))
    (by decide +kernel)

theorem prime_119959514223823 : Nat.Prime 119959514223823 :=
  prime_of_cert 119959514223823 5 [(2, 1), (3, 2), (7, 1), (13, 1), (17, 1), (97, 1), (1217, 1), (36493, 1)]
    (forall_cons (by norm_num) (forall_cons (by norm_num) (forall_cons (by norm_num) (forall_cons (by norm_num) (forall_cons (by norm_num) (forall_cons (by norm_num) (forall_cons (by norm_num) (forall_cons (by norm_num) forall_nil))))))))
    (by decide +kernel)

theorem prime_842759662099198845512679037 : Nat.Prime 842759662099198845512679037 :=
  prime_of_cert 842759662099198845512679037 2 [(2, 2), (3, 1), (11, 1), (19, 1), (23, 1), (59, 1), (2064247, 1), (119959514223823, 1)]
    (forall_cons (by norm_num) (forall_cons (by norm_num) (forall_cons (by norm_num) (forall_cons (by norm_num) (forall_cons (by norm_num) (forall_cons (by norm_num) (forall_cons prime_2064247 (forall_cons prime_119959514223823 forall_nil))))))))
    (by decide +kernel)

theorem prime_23597270538777567674355013037 : Nat.Prime 23597270538777567674355013037 :=
  prime_of_cert 23597270538777567674355013037 2 [(2, 2), (7, 1), (842759662099198845512679037, 1)]
    (forall_cons (by norm_num) (forall_cons (by norm_num) (forall_cons prime_842759662099198845512679037 forall_nil)))
    (by decide +kernel)

theorem prime_1461501637330902918203684832716283019655932542983 : Nat.Prime 1461501637330902918203684832716283019655932542983 :=
  prime_of_cert 1461501637330902918203684832716283019655932542983 7 [(2, 1), (29, 1), (227, 1), (27059, 1), (173848897619, 1), (23597270538777567674355013037, 1)]
    (forall_cons (by norm_num) (forall_cons (by norm_num) (forall_cons (by norm_num) (forall_cons (by norm_num) (forall_cons prime_173848897619 (forall_cons prime_23597270538777567674355013037 forall_nil))))))
    (by decide +kernel)

theorem prime_5779633 : Nat.Prime 5779633 :=
  prime_of_cert 5779633 5 [(2, 4), (3, 1), (347, 2)]
    (forall_cons (by norm_num) (forall_cons (by norm_num) (forall_cons (by norm_num) forall_nil)))
    (by decide +kernel)

theorem prime_14895633521 : Nat.Prime 14895633521 :=
  prime_of_cert 14895633521 7 [(2, 4), (5, 1), (23, 1), (101, 1), (80153, 1)]
    (forall_cons (by norm_num) (forall_cons (by norm_num) (forall_cons (by norm_num) (forall_cons (by norm_num) (forall_cons (by norm_num) forall_nil)))))
    (by decide +kernel)

theorem prime_1379659 : Nat.Prime 1379659 :=
  prime_of_cert 1379659 7 [(2, 1), (3, 1), (7, 1), (107, 1), (307, 1)]
    (forall_cons (by norm_num) (forall_cons (by norm_num) (forall_cons (by norm_num) (forall_cons (by norm_num) (forall_cons (by norm_num) forall_nil)))))
    (by decide +kernel)

theorem prime_4757064233 : Nat.Prime 4757064233 :=
  prime_of_cert 4757064233 3 [(2, 3), (431, 1), (1379659, 1)]
    (forall_cons (by norm_num) (forall_cons (by norm_num) (forall_cons prime_1379659 forall_nil)))
    (by decide +kernel)

theorem prime_371631372010427 : Nat.Prime 371631372010427 :=
  prime_of_cert 371631372010427 2 [(2, 1), (11, 1), (53, 1), (67, 1), (4757064233, 1)]
    (forall_cons (by norm_num) (forall_cons (by norm_num) (forall_cons (by norm_num) (forall_cons (by norm_num) (forall_cons prime_4757064233 forall_nil)))))
    (by decide +kernel)

theorem prime_2332013 : Nat.Prime 2332013 :=
  prime_of_cert 2332013 2 [(2, 2), (179, 1), (3257, 1)]
    (forall_cons (by norm_num) (forall_cons (by norm_num) (forall_cons (by norm_num) forall_nil)))
    (by decide +kernel)

theorem prime_1423390774811 : Nat.Prime 1423390774811 :=
  prime_of_cert 1423390774811 6 [(2, 1), (5, 1), (67, 1), (911, 1), (2332013, 1)]
    (forall_cons (by norm_num) (forall_cons (by norm_num) (forall_cons (by norm_num) (forall_cons (by norm_num) (forall_cons prime_2332013 forall_nil)))))
    (by decide +kernel)

theorem prime_5536990114014791 : Nat.Prime 5536990114014791 :=
  prime_of_cert 5536990114014791 11 [(2, 1), (5, 1), (389, 1), (1423390774811, 1)]
    (forall_cons (by norm_num) (forall_cons (by norm_num) (forall_cons (by norm_num) (forall_cons prime_1423390774811 forall_nil))))
    (by decide +kernel)

theorem prime_23384026197294446691258957323460528314494920687733 : Nat.Prime 23384026197294446691258957323460528314494920687733 :=
  prime_of_cert 23384026197294446691258957323460528314494920687733 2 [(2, 2), (3, 1), (11, 1), (5779633, 1), (14895633521, 1), (371631372010427, 1), (5536990114014791, 1)]
    (forall_cons (by norm_num) (forall_cons (by norm_num) (forall_cons (by norm_num) (forall_cons prime_5779633 (forall_cons prime_14895633521 (forall_cons prime_371631372010427 (forall_cons prime_5536990114014791 forall_nil)))))))
    (by decide +kernel)

theorem prime_750553 : Nat.Prime 750553 :=
  prime_of_cert 750553 5 [(2, 3), (3, 1), (11, 1), (2843, 1)]
    (forall_cons (by norm_num) (forall_cons (by norm_num) (forall_cons (by norm_num) (forall_cons (by norm_num) forall_nil))))
    (by decide +kernel)

theorem prime_87942097 : Nat.Prime 87942097 :=
  prime_of_cert 87942097 10 [(2, 4), (3, 2), (11, 1), (59, 1), (941, 1)]
    (forall_cons (by norm_num) (forall_cons (by norm_num) (forall_cons (by norm_num) (forall_cons (by norm_num) (forall_cons (by norm_num) forall_nil)))))
    (by decide +kernel)

theorem prime_2376187370267077 : Nat.Prime 2376187370267077 :=
  prime_of_cert 2376187370267077 2 [(2, 2), (3, 2), (750553, 1), (87942097, 1)]
    (forall_cons (by norm_num) (forall_cons (by norm_num) (forall_cons prime_750553 (forall_cons prime_87942097 forall_nil))))
    (by decide +kernel)

theorem prime_213856863324036931 : Nat.Prime 213856863324036931 :=
  prime_of_cert 213856863324036931 2 [(2, 1), (3, 2), (5, 1), (2376187370267077, 1)]
    (forall_cons (by norm_num) (forall_cons (by norm_num) (forall_cons (by norm_num) (forall_cons prime_2376187370267077 forall_nil))))
    (by decide +kernel)

theorem prime_2473409 : Nat.Prime 2473409 :=
  prime_of_cert 2473409 3 [(2, 6), (7, 1), (5521, 1)]
    (forall_cons (by norm_num) (forall_cons (by norm_num) (forall_cons (by norm_num) forall_nil)))
    (by decide +kernel)

theorem prime_4946819 : Nat.Prime 4946819 :=
  prime_of_cert 4946819 2 [(2, 1), (2473409, 1)]
    (forall_cons (by norm_num) (forall_cons prime_2473409 forall_nil))
    (by decide +kernel)

theorem prime_2841027407167 : Nat.Prime 2841027407167 :=
  prime_of_cert 2841027407167 3 [(2, 1), (3, 1), (13, 1), (37, 1), (199, 1), (4946819, 1)]
    (forall_cons (by norm_num) (forall_cons (by norm_num) (forall_cons (by norm_num) (forall_cons (by norm_num) (forall_cons (by norm_num) (forall_cons prime_4946819 forall_nil))))))
    (by decide +kernel)

theorem prime_66106336013 : Nat.Prime 66106336013 :=
  prime_of_cert 66106336013 2 [(2, 2), (29, 1), (31, 1), (461, 1), (39877, 1)]
    (forall_cons (by norm_num) (forall_cons (by norm_num) (forall_cons (by norm_num) (forall_cons (by norm_num) (forall_cons (by norm_num) forall_nil)))))
    (by decide +kernel)

theorem prime_2908678784573 : Nat.Prime 2908678784573 :=
  prime_of_cert 2908678784573 2 [(2, 2), (11, 1), (66106336013, 1)]
    (forall_cons (by norm_num) (forall_cons (by norm_num) (forall_cons prime_66106336013 forall_nil)))
    (by decide +kernel)

theorem prime_67480852765109166324650486707 : Nat.Prime 67480852765109166324650486707 :=
  prime_of_cert 67480852765109166324650486707 3 [(2, 1), (3, 1), (1361, 1), (2841027407167, 1), (2908678784573, 1)]
    (forall_cons (by norm_num) (forall_cons (by norm_num) (forall_cons (by norm_num) (forall_cons prime_2841027407167 (forall_cons prime_2908678784573 forall_nil)))))
    (by decide +kernel)

theorem prime_374144419156711147060143317175368453031918731001943 : Nat.Prime 374144419156711147060143317175368453031918731001943 :=
  prime_of_cert 374144419156711147060143317175368453031918731001943 3 [(2, 1), (3, 1), (29, 1), (149, 1), (213856863324036931, 1), (67480852765109166324650486707, 1)]
    (forall_cons (by norm_num) (forall_cons (by norm_num) (forall_cons (by norm_num) (forall_cons (by norm_num) (forall_cons prime_213856863324036931 (forall_cons prime_67480852765109166324650486707 forall_nil))))))
    (by decide +kernel)

theorem prime_996637 : Nat.Prime 996637 :=
  prime_of_cert 996637 2 [(2, 2), (3, 1), (23, 2), (157, 1)]
    (forall_cons (by norm_num) (forall_cons (by norm_num) (forall_cons (by norm_num) (forall_cons (by norm_num) forall_nil))))
    (by decide +kernel)

theorem prime_42682697 : Nat.Prime 42682697 :=
  prime_of_cert 42682697 3 [(2, 3), (7, 1), (181, 1), (4211, 1)]
    (forall_cons (by norm_num) (forall_cons (by norm_num) (forall_cons (by norm_num) (forall_cons (by norm_num) forall_nil))))
    (by decide +kernel)

theorem prime_341461577 : Nat.Prime 341461577 :=
  prime_of_cert 341461577 3 [(2, 3), (42682697, 1)]
    (forall_cons (by norm_num) (forall_cons prime_42682697 forall_nil))
    (by decide +kernel)

theorem prime_5453716061 : Nat.Prime 5453716061 :=
  prime_of_cert 5453716061 2 [(2, 2), (5, 1), (13, 1), (941, 1), (22291, 1)]
    (forall_cons (by norm_num) (forall_cons (by norm_num) (forall_cons (by norm_num) (forall_cons (by norm_num) (forall_cons (by norm_num) forall_nil)))))
    (by decide +kernel)

theorem prime_14678310019 : Nat.Prime 14678310019 :=
  prime_of_cert 14678310019 2 [(2, 1), (3, 1), (67, 1), (1699, 1), (21491, 1)]
    (forall_cons (by norm_num) (forall_cons (by norm_num) (forall_cons (by norm_num) (forall_cons (by norm_num) (forall_cons (by norm_num) forall_nil)))))
    (by decide +kernel)

theorem prime_68203737504311802915469 : Nat.Prime 68203737504311802915469 :=
  prime_of_cert 68203737504311802915469 2 [(2, 2), (3, 1), (71, 1), (5453716061, 1), (14678310019, 1)]
    (forall_cons (by norm_num) (forall_cons (by norm_num) (forall_cons (by norm_num) (forall_cons prime_5453716061 (forall_cons prime_14678310019 forall_nil)))))
    (by decide +kernel)

theorem prime_10010851002767939167691434753084448414201459 : Nat.Prime 10010851002767939167691434753084448414201459 :=
  prime_of_cert 10010851002767939167691434753084448414201459 2 [(2, 1), (19, 1), (23, 1), (43, 1), (1481, 1), (7723, 1), (341461577, 1), (68203737504311802915469, 1)]
    (forall_cons (by norm_num) (forall_cons (by norm_num) (forall_cons (by norm_num) (forall_cons (by norm_num) (forall_cons (by norm_num) (forall_cons (by norm_num) (forall_cons prime_341461577 (forall_cons prime_68203737504311802915469 forall_nil))))))))
    (by decide +kernel)

theorem prime_5986310706507378352962293074805895248510699696029801 : Nat.Prime 5986310706507378352962293074805895248510699696029801 :=
  prime_of_cert 5986310706507378352962293074805895248510699696029801 11 [(2, 3), (3, 1), (5, 2), (996637, 1), (10010851002767939167691434753084448414201459, 1)]
    (forall_cons (by norm_num) (forall_cons (by norm_num) (forall_cons (by norm_num) (forall_cons prime_996637 (forall_cons prime_10010851002767939167691434753084448414201459 forall_nil)))))
    (by decide +kernel)

theorem prime_4999007833 : Nat.Prime 4999007833 :=
  prime_of_cert 4999007833 5 [(2, 3), (3, 1), (7, 2), (13, 2), (25153, 1)]
    (forall_cons (by norm_num) (forall_cons (by norm_num) (forall_cons (by norm_num) (forall_cons (by norm_num) (forall_cons (by norm_num) forall_nil)))))
    (by decide +kernel)

theorem prime_402095703496441694431 : Nat.Prime 402095703496441694431 :=
  prime_of_cert 402095703496441694431 3 [(2, 1), (3, 1), (5, 1), (131, 1), (1669, 1), (12263, 1), (4999007833, 1)]
    (forall_cons (by norm_num) (forall_cons (by norm_num) (forall_cons (by norm_num) (forall_cons (by norm_num) (forall_cons (by norm_num) (forall_cons (by norm_num) (forall_cons prime_4999007833 forall_nil)))))))
    (by decide +kernel)

theorem prime_62229829 : Nat.Prime 62229829 :=
  prime_of_cert 62229829 10 [(2, 2), (3, 1), (373, 1), (13903, 1)]
    (forall_cons (by norm_num) (forall_cons (by norm_num) (forall_cons (by norm_num) (forall_cons (by norm_num) forall_nil))))
    (by decide +kernel)

theorem prime_6969740849 : Nat.Prime 6969740849 :=
  prime_of_cert 6969740849 3 [(2, 4), (7, 1), (62229829, 1)]
    (forall_cons (by norm_num) (forall_cons (by norm_num) (forall_cons prime_62229829 forall_nil)))
    (by decide +kernel)

theorem prime_308587 : Nat.Prime 308587 :=
  prime_of_cert 308587 2 [(2, 1), (3, 1), (51431, 1)]
    (forall_cons (by norm_num) (forall_cons (by norm_num) (forall_cons (by norm_num) forall_nil)))
    (by decide +kernel)

theorem prime_164811379309 : Nat.Prime 164811379309 :=
  prime_of_cert 164811379309 2 [(2, 2), (3, 1), (44507, 1), (308587, 1)]
    (forall_cons (by norm_num) (forall_cons (by norm_num) (forall_cons (by norm_num) (forall_cons prime_308587 forall_nil))))
    (by decide +kernel)

theorem prime_691512946855482357391283 : Nat.Prime 691512946855482357391283 :=
  prime_of_cert 691512946855482357391283 2 [(2, 1), (7, 1), (43, 1), (6969740849, 1), (164811379309, 1)]
    (forall_cons (by norm_num) (forall_cons (by norm_num) (forall_cons (by norm_num) (forall_cons prime_6969740849 (forall_cons prime_164811379309 forall_nil)))))
    (by decide +kernel)

theorem prime_1383025893710964714782567 : Nat.Prime 1383025893710964714782567 :=
  prime_of_cert 1383025893710964714782567 5 [(2, 1), (691512946855482357391283, 1)]
    (forall_cons (by norm_num) (forall_cons prime_691512946855482357391283 forall_nil))
    (by decide +kernel)

theorem prime_13524565278751490207200888053783440267745156048641 : Nat.Prime 13524565278751490207200888053783440267745156048641 :=
  prime_of_cert 13524565278751490207200888053783440267745156048641 3 [(2, 8), (5, 1), (19, 1), (402095703496441694431, 1), (1383025893710964714782567, 1)]
    (forall_cons (by norm_num) (forall_cons (by norm_num) (forall_cons (by norm_num) (forall_cons prime_402095703496441694431 (forall_cons prime_1383025893710964714782567 forall_nil)))))
    (by decide +kernel)

theorem prime_95780971304118053647396689196894323976171195136475563 : Nat.Prime 95780971304118053647396689196894323976171195136475563 :=
  prime_of_cert 95780971304118053647396689196894323976171195136475563 2 [(2, 1), (3541, 1), (13524565278751490207200888053783440267745156048641, 1)]
    (forall_cons (by norm_num) (forall_cons (by norm_num) (forall_cons prime_13524565278751490207200888053783440267745156048641 forall_nil)))
    (by decide +kernel)

theorem prime_93571801 : Nat.Prime 93571801 :=
  prime_of_cert 93571801 19 [(2, 3), (3, 1), (5, 2), (7, 1), (22279, 1)]
    (forall_cons (by norm_num) (forall_cons (by norm_num) (forall_cons (by norm_num) (forall_cons (by norm_num) (forall_cons (by norm_num) forall_nil)))))
    (by decide +kernel)

theorem prime_655189750603 : Nat.Prime 655189750603 :=
  prime_of_cert 655189750603 2 [(2, 1), (3, 2), (389, 1), (93571801, 1)]
    (forall_cons (by norm_num) (forall_cons (by norm_num) (forall_cons (by norm_num) (forall_cons prime_93571801 forall_nil))))
    (by decide +kernel)

theorem prime_2620759002413 : Nat.Prime 2620759002413 :=
  prime_of_cert 2620759002413 2 [(2, 2), (655189750603, 1)]
    (forall_cons (by norm_num) (forall_cons prime_655189750603 forall_nil))
    (by decide +kernel)

theorem prime_120477593 : Nat.Prime 120477593 :=
  prime_of_cert 120477593 3 [(2, 3), (349, 1), (43151, 1)]
    (forall_cons (by norm_num) (forall_cons (by norm_num) (forall_cons (by norm_num) forall_nil)))
    (by decide +kernel)

theorem prime_42890023109 : Nat.Prime 42890023109 :=
  prime_of_cert 42890023109 2 [(2, 2), (89, 1), (120477593, 1)]
    (forall_cons (by norm_num) (forall_cons (by norm_num) (forall_cons prime_120477593 forall_nil)))
    (by decide +kernel)

theorem prime_3860102079811 : Nat.Prime 3860102079811 :=
  prime_of_cert 3860102079811 2 [(2, 1), (3, 2), (5, 1), (42890023109, 1)]
    (forall_cons (by norm_num) (forall_cons (by norm_num) (forall_cons (by norm_num) (forall_cons prime_42890023109 forall_nil))))
    (by decide +kernel)

theorem prime_38601020798111 : Nat.Prime 38601020798111 :=
  prime_of_cert 38601020798111 7 [(2, 1), (5, 1), (3860102079811, 1)]
    (forall_cons (by norm_num) (forall_cons (by norm_num) (forall_cons prime_3860102079811 forall_nil)))
    (by decide +kernel)

theorem prime_21307763480557273 : Nat.Prime 21307763480557273 :=
  prime_of_cert 21307763480557273 7 [(2, 3), (3, 1), (23, 1), (38601020798111, 1)]
    (forall_cons (by norm_num) (forall_cons (by norm_num) (forall_cons (by norm_num) (forall_cons prime_38601020798111 forall_nil))))
    (by decide +kernel)

theorem prime_13935277316284456543 : Nat.Prime 13935277316284456543 :=
  prime_of_cert 13935277316284456543 5 [(2, 1), (3, 1), (109, 1), (21307763480557273, 1)]
    (forall_cons (by norm_num) (forall_cons (by norm_num) (forall_cons (by norm_num) (forall_cons prime_21307763480557273 forall_nil))))
    (by decide +kernel)

theorem prime_229373433577122324344867865717877 : Nat.Prime 229373433577122324344867865717877 :=
  prime_of_cert 229373433577122324344867865717877 2 [(2, 2), (3, 1), (11, 1), (1097, 1), (7867, 1), (14449, 1), (13935277316284456543, 1)]
    (forall_cons (by norm_num) (forall_cons (by norm_num) (forall_cons (by norm_num) (forall_cons (by norm_num) (forall_cons (by norm_num) (forall_cons (by norm_num) (forall_cons prime_13935277316284456543 forall_nil)))))))
    (by decide +kernel)

theorem prime_246731038789637479117341396588211624099 : Nat.Prime 246731038789637479117341396588211624099 :=
  prime_of_cert 246731038789637479117341396588211624099 2 [(2, 1), (3, 1), (61, 1), (2939, 1), (229373433577122324344867865717877, 1)]
    (forall_cons (by norm_num) (forall_cons (by norm_num) (forall_cons (by norm_num) (forall_cons (by norm_num) (forall_cons prime_229373433577122324344867865717877 forall_nil)))))
    (by decide +kernel)

theorem prime_1532495540865888858358347027150309183618739122183602191 : Nat.Prime 1532495540865888858358347027150309183618739122183602191 :=
  prime_of_cert 1532495540865888858358347027150309183618739122183602191 3 [(2, 1), (3, 1), (5, 1), (79, 1), (2620759002413, 1), (246731038789637479117341396588211624099, 1)]
    (forall_cons (by norm_num) (forall_cons (by norm_num) (forall_cons (by norm_num) (forall_cons (by norm_num) (forall_cons prime_2620759002413 (forall_cons prime_246731038789637479117341396588211624099 forall_nil))))))
    (by decide +kernel)

theorem prime_1545421 : Nat.Prime 1545421 :=
  prime_of_cert 1545421 2 [(2, 2), (3, 1), (5, 1), (43, 1), (599, 1)]
    (forall_cons (by norm_num) (forall_cons (by norm_num) (forall_cons (by norm_num) (forall_cons (by norm_num) (forall_cons (by norm_num) forall_nil)))))
    (by decide +kernel)

theorem prime_12907231 : Nat.Prime 12907231 :=
  prime_of_cert 12907231 15 [(2, 1), (3, 1), (5, 1), (7, 1), (61463, 1)]
    (forall_cons (by norm_num) (forall_cons (by norm_num) (forall_cons (by norm_num) (forall_cons (by norm_num) (forall_cons (by norm_num) forall_nil)))))
    (by decide +kernel)

theorem prime_319119953926183 : Nat.Prime 319119953926183 :=
  prime_of_cert 319119953926183 7 [(2, 1), (3, 1), (173, 1), (23819, 1), (12907231, 1)]
    (forall_cons (by norm_num) (forall_cons (by norm_num) (forall_cons (by norm_num) (forall_cons (by norm_num) (forall_cons prime_12907231 forall_nil)))))
    (by decide +kernel)

theorem prime_402091141946990581 : Nat.Prime 402091141946990581 :=
  prime_of_cert 402091141946990581 6 [(2, 2), (3, 2), (5, 1), (7, 1), (319119953926183, 1)]
    (forall_cons (by norm_num) (forall_cons (by norm_num) (forall_cons (by norm_num) (forall_cons (by norm_num) (forall_cons prime_319119953926183 forall_nil)))))
    (by decide +kernel)

theorem prime_731737 : Nat.Prime 731737 :=
  prime_of_cert 731737 7 [(2, 3), (3, 2), (10163, 1)]
    (forall_cons (by norm_num) (forall_cons (by norm_num) (forall_cons (by norm_num) forall_nil)))
    (by decide +kernel)

theorem prime_2807381 : Nat.Prime 2807381 :=
  prime_of_cert 2807381 2 [(2, 2), (5, 1), (17, 1), (23, 1), (359, 1)]
    (forall_cons (by norm_num) (forall_cons (by norm_num) (forall_cons (by norm_num) (forall_cons (by norm_num) (forall_cons (by norm_num) forall_nil)))))
    (by decide +kernel)

theorem prime_143451554339 : Nat.Prime 143451554339 :=
  prime_of_cert 143451554339 2 [(2, 1), (29, 1), (881, 1), (2807381, 1)]
    (forall_cons (by norm_num) (forall_cons (by norm_num) (forall_cons (by norm_num) (forall_cons prime_2807381 forall_nil))))
    (by decide +kernel)

theorem prime_20083217607461 : Nat.Prime 20083217607461 :=
  prime_of_cert 20083217607461 2 [(2, 2), (5, 1), (7, 1), (143451554339, 1)]
    (forall_cons (by norm_num) (forall_cons (by norm_num) (forall_cons (by norm_num) (forall_cons prime_143451554339 forall_nil))))
    (by decide +kernel)

theorem prime_40166435214923 : Nat.Prime 40166435214923 :=
  prime_of_cert 40166435214923 2 [(2, 1), (20083217607461, 1)]
    (forall_cons (by norm_num) (forall_cons prime_20083217607461 forall_nil))
    (by decide +kernel)

theorem prime_1029223380972661411787519 : Nat.Prime 1029223380972661411787519 :=
  prime_of_cert 1029223380972661411787519 11 [(2, 1), (17509, 1), (731737, 1), (40166435214923, 1)]
    (forall_cons (by norm_num) (forall_cons (by norm_num) (forall_cons prime_731737 (forall_cons prime_40166435214923 forall_nil))))
    (by decide +kernel)

theorem prime_12350680571671936941450229 : Nat.Prime 12350680571671936941450229 :=
  prime_of_cert 12350680571671936941450229 6 [(2, 2), (3, 1), (1029223380972661411787519, 1)]
    (forall_cons (by norm_num) (forall_cons (by norm_num) (forall_cons prime_1029223380972661411787519 forall_nil)))
    (by decide +kernel)

theorem prime_24519928653854221733733552434404946937899825954937634843 : Nat.Prime 24519928653854221733733552434404946937899825954937634843 :=
  prime_of_cert 24519928653854221733733552434404946937899825954937634843 3 [(2, 1), (3, 1), (7, 2), (10867, 1), (1545421, 1), (402091141946990581, 1), (12350680571671936941450229, 1)]
    (forall_cons (by norm_num) (forall_cons (by norm_num) (forall_cons (by norm_num) (forall_cons (by norm_num) (forall_cons prime_1545421 (forall_cons prime_402091141946990581 (forall_cons prime_12350680571671936941450229 forall_nil)))))))
    (by decide +kernel)

theorem prime_110334361 : Nat.Prime 110334361 :=
  prime_of_cert 110334361 13 [(2, 3), (3, 1), (5, 1), (61, 1), (15073, 1)]
    (forall_cons (by norm_num) (forall_cons (by norm_num) (forall_cons (by norm_num) (forall_cons (by norm_num) (forall_cons (by norm_num) forall_nil)))))
    (by decide +kernel)

theorem prime_701377 : Nat.Prime 701377 :=
  prime_of_cert 701377 14 [(2, 6), (3, 1), (13, 1), (281, 1)]
    (forall_cons (by norm_num) (forall_cons (by norm_num) (forall_cons (by norm_num) (forall_cons (by norm_num) forall_nil))))
    (by decide +kernel)

theorem prime_23846819 : Nat.Prime 23846819 :=
  prime_of_cert 23846819 2 [(2, 1), (17, 1), (701377, 1)]
    (forall_cons (by norm_num) (forall_cons (by norm_num) (forall_cons prime_701377 forall_nil)))
    (by decide +kernel)

theorem prime_906179123 : Nat.Prime 906179123 :=
  prime_of_cert 906179123 2 [(2, 1), (19, 1), (23846819, 1)]
    (forall_cons (by norm_num) (forall_cons (by norm_num) (forall_cons prime_23846819 forall_nil)))
    (by decide +kernel)

theorem prime_1962526103 : Nat.Prime 1962526103 :=
  prime_of_cert 1962526103 5 [(2, 1), (37, 1), (853, 1), (31091, 1)]
    (forall_cons (by norm_num) (forall_cons (by norm_num) (forall_cons (by norm_num) (forall_cons (by norm_num) forall_nil))))
    (by decide +kernel)

theorem prime_50652841894004267 : Nat.Prime 50652841894004267 :=
  prime_of_cert 50652841894004267 2 [(2, 1), (7, 1), (59, 1), (31247, 1), (1962526103, 1)]
    (forall_cons (by norm_num) (forall_cons (by norm_num) (forall_cons (by norm_num) (forall_cons (by norm_num) (forall_cons prime_1962526103 forall_nil)))))
    (by decide +kernel)

theorem prime_3748310300156315759 : Nat.Prime 3748310300156315759 :=
  prime_of_cert 3748310300156315759 13 [(2, 1), (37, 1), (50652841894004267, 1)]
    (forall_cons (by norm_num) (forall_cons (by norm_num) (forall_cons prime_50652841894004267 forall_nil)))
    (by decide +kernel)

theorem prime_39001914644374017489503144398066220619391 : Nat.Prime 39001914644374017489503144398066220619391 :=
  prime_of_cert 39001914644374017489503144398066220619391 3 [(2, 1), (3, 1), (5, 1), (3469, 1), (110334361, 1), (906179123, 1), (3748310300156315759, 1)]
    (forall_cons (by norm_num) (forall_cons (by norm_num) (forall_cons (by norm_num) (forall_cons (by norm_num) (forall_cons prime_110334361 (forall_cons prime_906179123 (forall_cons prime_3748310300156315759 forall_nil)))))))
    (by decide +kernel)

theorem prime_468022975732488209874037732776794647432693 : Nat.Prime 468022975732488209874037732776794647432693 :=
  prime_of_cert 468022975732488209874037732776794647432693 2 [(2, 2), (3, 1), (39001914644374017489503144398066220619391, 1)]
    (forall_cons (by norm_num) (forall_cons (by norm_num) (forall_cons prime_39001914644374017489503144398066220619391 forall_nil)))
    (by decide +kernel)

theorem prime_678633314812107904317354712526352238777404851 : Nat.Prime 678633314812107904317354712526352238777404851 :=
  prime_of_cert 678633314812107904317354712526352238777404851 2 [(2, 1), (5, 2), (29, 1), (468022975732488209874037732776794647432693, 1)]
    (forall_cons (by norm_num) (forall_cons (by norm_num) (forall_cons (by norm_num) (forall_cons prime_468022975732488209874037732776794647432693 forall_nil))))
    (by decide +kernel)

theorem prime_392318858461667547739736838950479151006397215279002157113 : Nat.Prime 392318858461667547739736838950479151006397215279002157113 :=
  prime_of_cert 392318858461667547739736838950479151006397215279002157113 5 [(2, 3), (3, 1), (13, 2), (3361, 1), (42407, 1), (678633314812107904317354712526352238777404851, 1)]
    (forall_cons (by norm_num) (forall_cons (by norm_num) (forall_cons (by norm_num) (forall_cons (by norm_num) (forall_cons (by norm_num) (forall_cons prime_678633314812107904317354712526352238777404851 forall_nil))))))
    (by decide +kernel)

end Verif.Prty
