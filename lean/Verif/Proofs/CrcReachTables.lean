import Verif.Proofs.CrcReachSmall

/-! # The reaches of the 8-bit and 16-bit polynomials -/

namespace IMU.Crc
open Spec.Crc

/-! #### 0x07#8 -/

theorem odd_07 : (0x07#8).getLsbD 0 = true := by decide
theorem par_07 : weight (0x07#8) % 2 = 1 := by decide +kernel
theorem ord_07 : IsOrder (0x07#8) 127 := order_of_fullCheck (by decide) (orders8_ok (0x07#8, 127) (by decide))
theorem all_07 : ∀ k, 2 ≤ k → IsReach (0x07#8) k (([127, 127] : List Nat).getD (k - 2) 8)
  | 2, _ => reach_two (by decide) odd_07 ord_07
  | 3, _ => reach_three (by decide) odd_07 par_07 ord_07
  | k + 4, _ => by
    have : ([127, 127] : List Nat).getD (k + 4 - 2) 8 = 8 := by
      rw [List.getD_eq_getElem?_getD, List.getElem?_eq_none (by simp only [List.length_cons, List.length_nil]; omega)]; rfl
    rw [this]
    exact reach_short (by decide) odd_07 [1, 2, 8] (by simp only [List.length_cons, List.length_nil]; omega) (by decide +kernel)
  | 0, h => absurd h (by decide)
  | 1, h => absurd h (by decide)

/-! #### 0x1D#8 -/

theorem odd_1D : (0x1D#8).getLsbD 0 = true := by decide
theorem ord_1D : IsOrder (0x1D#8) 255 := order_of_fullCheck (by decide) (orders8_ok (0x1D#8, 255) (by decide))
theorem det_1D_3 : detCheck (0x1D#8) 3 21 = true := by decide +kernel
theorem det_1D_4 : detCheck (0x1D#8) 4 14 = true := by decide +kernel
theorem all_1D : ∀ k, 2 ≤ k → IsReach (0x1D#8) k (([255, 21, 14] : List Nat).getD (k - 2) 8)
  | 2, _ => reach_two (by decide) odd_1D ord_1D
  | 3, _ => reach_check (by decide) odd_1D [10, 21] (by decide) (by decide) det_1D_3 (by decide +kernel)
  | 4, _ => reach_check (by decide) odd_1D [1, 4, 14] (by decide) (by decide) det_1D_4 (by decide +kernel)
  | k + 5, _ => by
    have : ([255, 21, 14] : List Nat).getD (k + 5 - 2) 8 = 8 := by
      rw [List.getD_eq_getElem?_getD, List.getElem?_eq_none (by simp only [List.length_cons, List.length_nil]; omega)]; rfl
    rw [this]
    exact reach_short (by decide) odd_1D [2, 3, 4, 8] (by simp only [List.length_cons, List.length_nil]; omega) (by decide +kernel)
  | 0, h => absurd h (by decide)
  | 1, h => absurd h (by decide)

/-! #### 0x2F#8 -/

theorem odd_2F : (0x2F#8).getLsbD 0 = true := by decide
theorem par_2F : weight (0x2F#8) % 2 = 1 := by decide +kernel
theorem ord_2F : IsOrder (0x2F#8) 127 := order_of_fullCheck (by decide) (orders8_ok (0x2F#8, 127) (by decide))
theorem det_2F_4 : detCheck (0x2F#8) 4 11 = true := by decide +kernel
theorem all_2F : ∀ k, 2 ≤ k → IsReach (0x2F#8) k (([127, 127, 11, 11] : List Nat).getD (k - 2) 8)
  | 2, _ => reach_two (by decide) odd_2F ord_2F
  | 3, _ => reach_three (by decide) odd_2F par_2F ord_2F
  | 4, _ => reach_check (by decide) odd_2F [3, 9, 11] (by decide) (by decide) det_2F_4 (by decide +kernel)
  | 5, _ => reach_odd (by decide) odd_2F par_2F [3, 9, 11] (by decide) (by decide) (by decide) det_2F_4 (by decide +kernel)
  | k + 6, _ => by
    have : ([127, 127, 11, 11] : List Nat).getD (k + 6 - 2) 8 = 8 := by
      rw [List.getD_eq_getElem?_getD, List.getElem?_eq_none (by simp only [List.length_cons, List.length_nil]; omega)]; rfl
    rw [this]
    exact reach_short (by decide) odd_2F [1, 2, 3, 5, 8] (by simp only [List.length_cons, List.length_nil]; omega) (by decide +kernel)
  | 0, h => absurd h (by decide)
  | 1, h => absurd h (by decide)

/-! #### 0x31#8 -/

theorem odd_31 : (0x31#8).getLsbD 0 = true := by decide
theorem par_31 : weight (0x31#8) % 2 = 1 := by decide +kernel
theorem ord_31 : IsOrder (0x31#8) 127 := order_of_fullCheck (by decide) (orders8_ok (0x31#8, 127) (by decide))
theorem all_31 : ∀ k, 2 ≤ k → IsReach (0x31#8) k (([127, 127] : List Nat).getD (k - 2) 8)
  | 2, _ => reach_two (by decide) odd_31 ord_31
  | 3, _ => reach_three (by decide) odd_31 par_31 ord_31
  | k + 4, _ => by
    have : ([127, 127] : List Nat).getD (k + 4 - 2) 8 = 8 := by
      rw [List.getD_eq_getElem?_getD, List.getElem?_eq_none (by simp only [List.length_cons, List.length_nil]; omega)]; rfl
    rw [this]
    exact reach_short (by decide) odd_31 [4, 5, 8] (by simp only [List.length_cons, List.length_nil]; omega) (by decide +kernel)
  | 0, h => absurd h (by decide)
  | 1, h => absurd h (by decide)

/-! #### 0x39#8 -/

theorem odd_39 : (0x39#8).getLsbD 0 = true := by decide
theorem ord_39 : IsOrder (0x39#8) 17 := order_of_fullCheck (by decide) (orders8_ok (0x39#8, 17) (by decide))
theorem det_39_3 : detCheck (0x39#8) 3 17 = true := by decide +kernel
theorem det_39_4 : detCheck (0x39#8) 4 17 = true := by decide +kernel
theorem all_39 : ∀ k, 2 ≤ k → IsReach (0x39#8) k (([17, 17, 17] : List Nat).getD (k - 2) 8)
  | 2, _ => reach_two (by decide) odd_39 ord_39
  | 3, _ => reach_check (by decide) odd_39 [17] (by decide) (by decide) det_39_3 (by decide +kernel)
  | 4, _ => reach_check (by decide) odd_39 [17] (by decide) (by decide) det_39_4 (by decide +kernel)
  | k + 5, _ => by
    have : ([17, 17, 17] : List Nat).getD (k + 5 - 2) 8 = 8 := by
      rw [List.getD_eq_getElem?_getD, List.getElem?_eq_none (by simp only [List.length_cons, List.length_nil]; omega)]; rfl
    rw [this]
    exact reach_short (by decide) odd_39 [3, 4, 5, 8] (by simp only [List.length_cons, List.length_nil]; omega) (by decide +kernel)
  | 0, h => absurd h (by decide)
  | 1, h => absurd h (by decide)

/-! #### 0x9B#8 -/

theorem odd_9B : (0x9B#8).getLsbD 0 = true := by decide
theorem par_9B : weight (0x9B#8) % 2 = 1 := by decide +kernel
theorem ord_9B : IsOrder (0x9B#8) 127 := order_of_fullCheck (by decide) (orders8_ok (0x9B#8, 127) (by decide))
theorem det_9B_4 : detCheck (0x9B#8) 4 10 = true := by decide +kernel
theorem all_9B : ∀ k, 2 ≤ k → IsReach (0x9B#8) k (([127, 127, 10, 10] : List Nat).getD (k - 2) 8)
  | 2, _ => reach_two (by decide) odd_9B ord_9B
  | 3, _ => reach_three (by decide) odd_9B par_9B ord_9B
  | 4, _ => reach_check (by decide) odd_9B [6, 7, 10] (by decide) (by decide) det_9B_4 (by decide +kernel)
  | 5, _ => reach_odd (by decide) odd_9B par_9B [6, 7, 10] (by decide) (by decide) (by decide) det_9B_4 (by decide +kernel)
  | k + 6, _ => by
    have : ([127, 127, 10, 10] : List Nat).getD (k + 6 - 2) 8 = 8 := by
      rw [List.getD_eq_getElem?_getD, List.getElem?_eq_none (by simp only [List.length_cons, List.length_nil]; omega)]; rfl
    rw [this]
    exact reach_short (by decide) odd_9B [1, 3, 4, 7, 8] (by simp only [List.length_cons, List.length_nil]; omega) (by decide +kernel)
  | 0, h => absurd h (by decide)
  | 1, h => absurd h (by decide)

/-! #### 0xD5#8 -/

theorem odd_D5 : (0xD5#8).getLsbD 0 = true := by decide
theorem par_D5 : weight (0xD5#8) % 2 = 1 := by decide +kernel
theorem ord_D5 : IsOrder (0xD5#8) 93 := order_of_fullCheck (by decide) (orders8_ok (0xD5#8, 93) (by decide))
theorem det_D5_4 : detCheck (0xD5#8) 4 10 = true := by decide +kernel
theorem all_D5 : ∀ k, 2 ≤ k → IsReach (0xD5#8) k (([93, 93, 10, 10] : List Nat).getD (k - 2) 8)
  | 2, _ => reach_two (by decide) odd_D5 ord_D5
  | 3, _ => reach_three (by decide) odd_D5 par_D5 ord_D5
  | 4, _ => reach_check (by decide) odd_D5 [7, 9, 10] (by decide) (by decide) det_D5_4 (by decide +kernel)
  | 5, _ => reach_odd (by decide) odd_D5 par_D5 [7, 9, 10] (by decide) (by decide) (by decide) det_D5_4 (by decide +kernel)
  | k + 6, _ => by
    have : ([93, 93, 10, 10] : List Nat).getD (k + 6 - 2) 8 = 8 := by
      rw [List.getD_eq_getElem?_getD, List.getElem?_eq_none (by simp only [List.length_cons, List.length_nil]; omega)]; rfl
    rw [this]
    exact reach_short (by decide) odd_D5 [2, 4, 6, 7, 8] (by simp only [List.length_cons, List.length_nil]; omega) (by decide +kernel)
  | 0, h => absurd h (by decide)
  | 1, h => absurd h (by decide)

/-! #### 0x0589#16 -/

theorem odd_0589 : (0x0589#16).getLsbD 0 = true := by decide
theorem par_0589 : weight (0x0589#16) % 2 = 1 := by decide +kernel
theorem ord_0589 : IsOrder (0x0589#16) 254 := order_of_fullCheck (by decide) (orders16_ok (0x0589#16, 254) (by decide))
theorem det_0589_4 : detCheck (0x0589#16) 4 128 = true := by decide +kernel
theorem all_0589 : ∀ k, 2 ≤ k → IsReach (0x0589#16) k (([254, 254, 128, 128] : List Nat).getD (k - 2) 16)
  | 2, _ => reach_two (by decide) odd_0589 ord_0589
  | 3, _ => reach_three (by decide) odd_0589 par_0589 ord_0589
  | 4, _ => reach_check (by decide) odd_0589 [1, 127, 128] (by decide) (by decide) det_0589_4 (by decide +kernel)
  | 5, _ => reach_odd (by decide) odd_0589 par_0589 [1, 127, 128] (by decide) (by decide) (by decide) det_0589_4 (by decide +kernel)
  | k + 6, _ => by
    have : ([254, 254, 128, 128] : List Nat).getD (k + 6 - 2) 16 = 16 := by
      rw [List.getD_eq_getElem?_getD, List.getElem?_eq_none (by simp only [List.length_cons, List.length_nil]; omega)]; rfl
    rw [this]
    exact reach_short (by decide) odd_0589 [3, 7, 8, 10, 16] (by simp only [List.length_cons, List.length_nil]; omega) (by decide +kernel)
  | 0, h => absurd h (by decide)
  | 1, h => absurd h (by decide)

/-! #### 0x1021#16 -/

theorem odd_1021 : (0x1021#16).getLsbD 0 = true := by decide
theorem par_1021 : weight (0x1021#16) % 2 = 1 := by decide +kernel
theorem ord_1021 : IsOrder (0x1021#16) 32767 := order_of_fullCheck (by decide) (orders16_ok (0x1021#16, 32767) (by decide))
theorem all_1021 : ∀ k, 2 ≤ k → IsReach (0x1021#16) k (([32767, 32767] : List Nat).getD (k - 2) 16)
  | 2, _ => reach_two (by decide) odd_1021 ord_1021
  | 3, _ => reach_three (by decide) odd_1021 par_1021 ord_1021
  | k + 4, _ => by
    have : ([32767, 32767] : List Nat).getD (k + 4 - 2) 16 = 16 := by
      rw [List.getD_eq_getElem?_getD, List.getElem?_eq_none (by simp only [List.length_cons, List.length_nil]; omega)]; rfl
    rw [this]
    exact reach_short (by decide) odd_1021 [5, 12, 16] (by simp only [List.length_cons, List.length_nil]; omega) (by decide +kernel)
  | 0, h => absurd h (by decide)
  | 1, h => absurd h (by decide)

/-! #### 0x3D65#16 -/

theorem odd_3D65 : (0x3D65#16).getLsbD 0 = true := by decide
theorem par_3D65 : weight (0x3D65#16) % 2 = 1 := by decide +kernel
theorem ord_3D65 : IsOrder (0x3D65#16) 151 := order_of_fullCheck (by decide) (orders16_ok (0x3D65#16, 151) (by decide))
theorem det_3D65_4 : detCheck (0x3D65#16) 4 151 = true := by decide +kernel
theorem det_3D65_6 : detCheck (0x3D65#16) 6 22 = true := by decide +kernel
theorem det_3D65_8 : detCheck (0x3D65#16) 8 20 = true := by decide +kernel
theorem all_3D65 : ∀ k, 2 ≤ k → IsReach (0x3D65#16) k (([151, 151, 151, 151, 22, 22, 20, 20] : List Nat).getD (k - 2) 16)
  | 2, _ => reach_two (by decide) odd_3D65 ord_3D65
  | 3, _ => reach_three (by decide) odd_3D65 par_3D65 ord_3D65
  | 4, _ => reach_check (by decide) odd_3D65 [151] (by decide) (by decide) det_3D65_4 (by decide +kernel)
  | 5, _ => reach_odd (by decide) odd_3D65 par_3D65 [151] (by decide) (by decide) (by decide) det_3D65_4 (by decide +kernel)
  | 6, _ => reach_check (by decide) odd_3D65 [1, 4, 6, 16, 22] (by decide) (by decide) det_3D65_6 (by decide +kernel)
  | 7, _ => reach_odd (by decide) odd_3D65 par_3D65 [1, 4, 6, 16, 22] (by decide) (by decide) (by decide) det_3D65_6 (by decide +kernel)
  | 8, _ => reach_check (by decide) odd_3D65 [2, 3, 4, 16, 17, 19, 20] (by decide) (by decide) det_3D65_8 (by decide +kernel)
  | 9, _ => reach_odd (by decide) odd_3D65 par_3D65 [2, 3, 4, 16, 17, 19, 20] (by decide) (by decide) (by decide) det_3D65_8 (by decide +kernel)
  | k + 10, _ => by
    have : ([151, 151, 151, 151, 22, 22, 20, 20] : List Nat).getD (k + 10 - 2) 16 = 16 := by
      rw [List.getD_eq_getElem?_getD, List.getElem?_eq_none (by simp only [List.length_cons, List.length_nil]; omega)]; rfl
    rw [this]
    exact reach_short (by decide) odd_3D65 [2, 5, 6, 8, 10, 11, 12, 13, 16] (by simp only [List.length_cons, List.length_nil]; omega) (by decide +kernel)
  | 0, h => absurd h (by decide)
  | 1, h => absurd h (by decide)

/-! #### 0x8005#16 -/

theorem odd_8005 : (0x8005#16).getLsbD 0 = true := by decide
theorem par_8005 : weight (0x8005#16) % 2 = 1 := by decide +kernel
theorem ord_8005 : IsOrder (0x8005#16) 32767 := order_of_fullCheck (by decide) (orders16_ok (0x8005#16, 32767) (by decide))
theorem all_8005 : ∀ k, 2 ≤ k → IsReach (0x8005#16) k (([32767, 32767] : List Nat).getD (k - 2) 16)
  | 2, _ => reach_two (by decide) odd_8005 ord_8005
  | 3, _ => reach_three (by decide) odd_8005 par_8005 ord_8005
  | k + 4, _ => by
    have : ([32767, 32767] : List Nat).getD (k + 4 - 2) 16 = 16 := by
      rw [List.getD_eq_getElem?_getD, List.getElem?_eq_none (by simp only [List.length_cons, List.length_nil]; omega)]; rfl
    rw [this]
    exact reach_short (by decide) odd_8005 [2, 15, 16] (by simp only [List.length_cons, List.length_nil]; omega) (by decide +kernel)
  | 0, h => absurd h (by decide)
  | 1, h => absurd h (by decide)

/-! #### 0x8BB7#16 -/

theorem odd_8BB7 : (0x8BB7#16).getLsbD 0 = true := by decide
theorem ord_8BB7 : IsOrder (0x8BB7#16) 65535 := order_of_fullCheck (by decide) (orders16_ok (0x8BB7#16, 65535) (by decide))
theorem det_8BB7_3 : detCheck (0x8BB7#16) 3 369 = true := by decide +kernel
theorem det_8BB7_4 : detCheck (0x8BB7#16) 4 63 = true := by decide +kernel
theorem det_8BB7_5 : detCheck (0x8BB7#16) 5 39 = true := by decide +kernel
theorem det_8BB7_6 : detCheck (0x8BB7#16) 6 24 = true := by decide +kernel
theorem det_8BB7_7 : detCheck (0x8BB7#16) 7 18 = true := by decide +kernel
theorem det_8BB7_8 : detCheck (0x8BB7#16) 8 18 = true := by decide +kernel
theorem det_8BB7_9 : detCheck (0x8BB7#16) 9 18 = true := by decide +kernel
theorem det_8BB7_10 : detCheck (0x8BB7#16) 10 17 = true := by decide +kernel
theorem all_8BB7 : ∀ k, 2 ≤ k → IsReach (0x8BB7#16) k (([65535, 369, 63, 39, 24, 18, 18, 18, 17] : List Nat).getD (k - 2) 16)
  | 2, _ => reach_two (by decide) odd_8BB7 ord_8BB7
  | 3, _ => reach_check (by decide) odd_8BB7 [31, 369] (by decide) (by decide) det_8BB7_3 (by decide +kernel)
  | 4, _ => reach_check (by decide) odd_8BB7 [7, 27, 63] (by decide) (by decide) det_8BB7_4 (by decide +kernel)
  | 5, _ => reach_check (by decide) odd_8BB7 [7, 10, 15, 39] (by decide) (by decide) det_8BB7_5 (by decide +kernel)
  | 6, _ => reach_check (by decide) odd_8BB7 [5, 14, 17, 21, 24] (by decide) (by decide) det_8BB7_6 (by decide +kernel)
  | 7, _ => reach_check (by decide) odd_8BB7 [2, 9, 12, 13, 15, 18] (by decide) (by decide) det_8BB7_7 (by decide +kernel)
  | 8, _ => reach_check (by decide) odd_8BB7 [2, 9, 12, 13, 15, 18] (by decide) (by decide) det_8BB7_8 (by decide +kernel)
  | 9, _ => reach_check (by decide) odd_8BB7 [2, 9, 12, 13, 15, 18] (by decide) (by decide) det_8BB7_9 (by decide +kernel)
  | 10, _ => reach_check (by decide) odd_8BB7 [3, 4, 6, 7, 10, 11, 12, 15, 17] (by decide) (by decide) det_8BB7_10 (by decide +kernel)
  | k + 11, _ => by
    have : ([65535, 369, 63, 39, 24, 18, 18, 18, 17] : List Nat).getD (k + 11 - 2) 16 = 16 := by
      rw [List.getD_eq_getElem?_getD, List.getElem?_eq_none (by simp only [List.length_cons, List.length_nil]; omega)]; rfl
    rw [this]
    exact reach_short (by decide) odd_8BB7 [1, 2, 4, 5, 7, 8, 9, 11, 15, 16] (by simp only [List.length_cons, List.length_nil]; omega) (by decide +kernel)
  | 0, h => absurd h (by decide)
  | 1, h => absurd h (by decide)

/-! #### 0xA097#16 -/

theorem odd_A097 : (0xA097#16).getLsbD 0 = true := by decide
theorem par_A097 : weight (0xA097#16) % 2 = 1 := by decide +kernel
theorem ord_A097 : IsOrder (0xA097#16) 32766 := order_of_fullCheck (by decide) (orders16_ok (0xA097#16, 32766) (by decide))
theorem det_A097_4 : detCheck (0xA097#16) 4 83 = true := by decide +kernel
theorem det_A097_6 : detCheck (0xA097#16) 6 24 = true := by decide +kernel
theorem all_A097 : ∀ k, 2 ≤ k → IsReach (0xA097#16) k (([32766, 32766, 83, 83, 24, 24] : List Nat).getD (k - 2) 16)
  | 2, _ => reach_two (by decide) odd_A097 ord_A097
  | 3, _ => reach_three (by decide) odd_A097 par_A097 ord_A097
  | 4, _ => reach_check (by decide) odd_A097 [6, 15, 83] (by decide) (by decide) det_A097_4 (by decide +kernel)
  | 5, _ => reach_odd (by decide) odd_A097 par_A097 [6, 15, 83] (by decide) (by decide) (by decide) det_A097_4 (by decide +kernel)
  | 6, _ => reach_check (by decide) odd_A097 [3, 7, 8, 12, 24] (by decide) (by decide) det_A097_6 (by decide +kernel)
  | 7, _ => reach_odd (by decide) odd_A097 par_A097 [3, 7, 8, 12, 24] (by decide) (by decide) (by decide) det_A097_6 (by decide +kernel)
  | k + 8, _ => by
    have : ([32766, 32766, 83, 83, 24, 24] : List Nat).getD (k + 8 - 2) 16 = 16 := by
      rw [List.getD_eq_getElem?_getD, List.getElem?_eq_none (by simp only [List.length_cons, List.length_nil]; omega)]; rfl
    rw [this]
    exact reach_short (by decide) odd_A097 [1, 2, 4, 7, 13, 15, 16] (by simp only [List.length_cons, List.length_nil]; omega) (by decide +kernel)
  | 0, h => absurd h (by decide)
  | 1, h => absurd h (by decide)

/-! #### 0xC867#16 -/

theorem odd_C867 : (0xC867#16).getLsbD 0 = true := by decide
theorem ord_C867 : IsOrder (0xC867#16) 65535 := order_of_fullCheck (by decide) (orders16_ok (0xC867#16, 65535) (by decide))
theorem det_C867_3 : detCheck (0xC867#16) 3 377 = true := by decide +kernel
theorem det_C867_4 : detCheck (0xC867#16) 4 60 = true := by decide +kernel
theorem det_C867_5 : detCheck (0xC867#16) 5 27 = true := by decide +kernel
theorem det_C867_6 : detCheck (0xC867#16) 6 27 = true := by decide +kernel
theorem det_C867_7 : detCheck (0xC867#16) 7 21 = true := by decide +kernel
theorem det_C867_8 : detCheck (0xC867#16) 8 17 = true := by decide +kernel
theorem all_C867 : ∀ k, 2 ≤ k → IsReach (0xC867#16) k (([65535, 377, 60, 27, 27, 21, 17] : List Nat).getD (k - 2) 16)
  | 2, _ => reach_two (by decide) odd_C867 ord_C867
  | 3, _ => reach_check (by decide) odd_C867 [43, 377] (by decide) (by decide) det_C867_3 (by decide +kernel)
  | 4, _ => reach_check (by decide) odd_C867 [4, 35, 60] (by decide) (by decide) det_C867_4 (by decide +kernel)
  | 5, _ => reach_check (by decide) odd_C867 [5, 13, 24, 27] (by decide) (by decide) det_C867_5 (by decide +kernel)
  | 6, _ => reach_check (by decide) odd_C867 [5, 13, 24, 27] (by decide) (by decide) det_C867_6 (by decide +kernel)
  | 7, _ => reach_check (by decide) odd_C867 [8, 12, 15, 16, 19, 21] (by decide) (by decide) det_C867_7 (by decide +kernel)
  | 8, _ => reach_check (by decide) odd_C867 [3, 5, 7, 11, 12, 14, 17] (by decide) (by decide) det_C867_8 (by decide +kernel)
  | k + 9, _ => by
    have : ([65535, 377, 60, 27, 27, 21, 17] : List Nat).getD (k + 9 - 2) 16 = 16 := by
      rw [List.getD_eq_getElem?_getD, List.getElem?_eq_none (by simp only [List.length_cons, List.length_nil]; omega)]; rfl
    rw [this]
    exact reach_short (by decide) odd_C867 [1, 2, 5, 6, 11, 14, 15, 16] (by simp only [List.length_cons, List.length_nil]; omega) (by decide +kernel)
  | 0, h => absurd h (by decide)
  | 1, h => absurd h (by decide)

theorem reach8_ok : ∀ x ∈ reach8, ∀ k, 2 ≤ k → IsReach x.1 k (x.2.getD (k - 2) 8) := by
  simp only [reach8, List.forall_mem_cons, List.not_mem_nil, false_imp_iff, implies_true, and_true]
  exact ⟨all_07, all_1D, all_2F, all_31, all_39, all_9B, all_D5⟩

theorem reach16_ok : ∀ x ∈ reach16, ∀ k, 2 ≤ k → IsReach x.1 k (x.2.getD (k - 2) 16) := by
  simp only [reach16, List.forall_mem_cons, List.not_mem_nil, false_imp_iff, implies_true, and_true]
  exact ⟨all_0589, all_1021, all_3D65, all_8005, all_8BB7, all_A097, all_C867⟩

end IMU.Crc
