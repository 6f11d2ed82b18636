import Verif.Proofs.CrcZeros
import Verif.Spec.CrcExchange

/-! # Two bytes of a message that change places -/

namespace IMU.Crc
open Spec.Crc

/-- The register after the bits of a byte. -/
def maskReg {w : Nat} (P : BitVec w) (d : Byte) : BitVec w := crcBits P 0#w (bitsMSB d)

/-- The difference that the multiplication with `a` makes to the register after a byte. -/
def moved {w : Nat} (P a : BitVec w) (d : Byte) : BitVec w := mulmod P a (maskReg P d) ^^^ maskReg P d

/-- `moved` of the bytes with a single one. -/
def units {w : Nat} (P a : BitVec w) : List Nat :=
  [(moved P a 1#8).toNat, (moved P a 2#8).toNat, (moved P a 4#8).toNat, (moved P a 8#8).toNat, (moved P a 16#8).toNat,
    (moved P a 32#8).toNat, (moved P a 64#8).toNat, (moved P a 128#8).toNat]

/-- The sum of those numbers that the binary digits of `d` select. -/
def select : List Nat → Nat → Nat
  | [], _ => 0
  | v :: vs, d => Nat.xor (Nat.mul (Nat.mod d 2) v) (select vs (Nat.div d 2))

/-- A certificate for the period `k` of the multiplication with `x ^ 8`: `x ^ (8 k)` with its `units`, and for every prime
factor `q` of `k` the power `x ^ (8 (k / q))` with its `units`. -/
structure Cert (w : Nat) where
  k : Nat
  a : BitVec w
  us : List Nat
  qs : List (Nat × BitVec w × List Nat)

/-- The powers in the certificate are right. -/
def certOk {w : Nat} (P : BitVec w) (c : Cert w) : Bool :=
  decide (0 < c.k) && c.qs.all (fun x => primes.contains x.1) && (c.qs.map (·.1)).prod == c.k &&
  numMSB (digits 36 (8 * c.k)) == 8 * c.k && xpow P (digits 36 (8 * c.k)) == c.a && units P c.a == c.us &&
    c.qs.all (fun x => numMSB (digits 36 (8 * (c.k / x.1))) == 8 * (c.k / x.1) &&
      xpow P (digits 36 (8 * (c.k / x.1))) == x.2.1 && units P x.2.1 == x.2.2)

/-- The mask `d` has the period of the certificate. -/
def maskOk {w : Nat} (c : Cert w) (d : Nat) : Bool :=
  Nat.beq (select c.us d) 0 && c.qs.all (fun x => !Nat.beq (select x.2.2 d) 0)

theorem mulmod_xor {w : Nat} (hw : 0 < w) (P a b c : BitVec w) : mulmod P a (b ^^^ c) = mulmod P a b ^^^ mulmod P a c := by
  apply mk_inj (P := P)
  rw [mk_mulmod hw, polyOf_xor, polyOf_xor, map_add, map_add, mk_mulmod hw, mk_mulmod hw, mul_add]

theorem maskReg_xor {w : Nat} (P : BitVec w) (d e : Byte) : maskReg P (d ^^^ e) = maskReg P d ^^^ maskReg P e := by
  unfold maskReg
  rw [crcBits_xor P (bitsMSB d) (bitsMSB e) 0#w 0#w rfl, BitVec.xor_self]
  congr 1
  simp [bitsMSB]

theorem moved_xor {w : Nat} (hw : 0 < w) (P a : BitVec w) (d e : Byte) : moved P a (d ^^^ e) = moved P a d ^^^ moved P a e := by
  unfold moved
  rw [maskReg_xor, mulmod_xor hw]
  generalize mulmod P a (maskReg P d) = x
  generalize mulmod P a (maskReg P e) = y
  generalize maskReg P d = z
  generalize maskReg P e = t
  ext i hi
  simp only [BitVec.getElem_xor]
  cases x[i] <;> cases y[i] <;> cases z[i] <;> cases t[i] <;> rfl

theorem moved_zero {w : Nat} (hw : 0 < w) (P a : BitVec w) : moved P a 0#8 = 0#w := by
  have h := moved_xor hw P a 0#8 0#8
  rw [BitVec.xor_self] at h
  rw [h, BitVec.xor_self]

/-- The byte with the bit `i` of `d` only. -/
def bitOf (d : Byte) (i : Nat) : Byte := if d.getLsbD i then 1#8 <<< i else 0#8

theorem byte_split : ∀ d : Byte, d = bitOf d 0 ^^^ (bitOf d 1 ^^^ (bitOf d 2 ^^^ (bitOf d 3 ^^^ (bitOf d 4 ^^^ (bitOf d 5 ^^^
    (bitOf d 6 ^^^ bitOf d 7)))))) := by decide +kernel

theorem byte_digits : ∀ d : Byte, d.toNat % 2 = (d.getLsbD 0).toNat ∧ d.toNat / 2 % 2 = (d.getLsbD 1).toNat ∧
    d.toNat / 2 / 2 % 2 = (d.getLsbD 2).toNat ∧ d.toNat / 2 / 2 / 2 % 2 = (d.getLsbD 3).toNat ∧
    d.toNat / 2 / 2 / 2 / 2 % 2 = (d.getLsbD 4).toNat ∧ d.toNat / 2 / 2 / 2 / 2 / 2 % 2 = (d.getLsbD 5).toNat ∧
    d.toNat / 2 / 2 / 2 / 2 / 2 / 2 % 2 = (d.getLsbD 6).toNat ∧
    d.toNat / 2 / 2 / 2 / 2 / 2 / 2 / 2 % 2 = (d.getLsbD 7).toNat := by decide +kernel

theorem moved_bitOf {w : Nat} (hw : 0 < w) (P a : BitVec w) (d : Byte) (i : Nat) :
    (moved P a (bitOf d i)).toNat = (d.getLsbD i).toNat * (moved P a (1#8 <<< i)).toNat := by
  unfold bitOf
  cases d.getLsbD i
  · simp [moved_zero hw]
  · simp

theorem select_units {w : Nat} (hw : 0 < w) (P a : BitVec w) (d : Byte) :
    select (units P a) d.toNat = (moved P a d).toNat := by
  obtain ⟨h0, h1, h2, h3, h4, h5, h6, h7⟩ := byte_digits d
  conv_rhs => rw [byte_split d]
  simp only [moved_xor hw, BitVec.toNat_xor, moved_bitOf hw, units, select]
  show ((d.toNat % 2) * _) ^^^ (((d.toNat / 2 % 2) * _) ^^^ (((d.toNat / 2 / 2 % 2) * _) ^^^ (((d.toNat / 2 / 2 / 2 % 2) * _) ^^^
    (((d.toNat / 2 / 2 / 2 / 2 % 2) * _) ^^^ (((d.toNat / 2 / 2 / 2 / 2 / 2 % 2) * _) ^^^
    (((d.toNat / 2 / 2 / 2 / 2 / 2 / 2 % 2) * _) ^^^ (((d.toNat / 2 / 2 / 2 / 2 / 2 / 2 / 2 % 2) * _) ^^^ 0))))))) = _
  rw [h0, h1, h2, h3, h4, h5, h6, h7, Nat.xor_zero]
  rfl

theorem select_zero {w : Nat} (hw : 0 < w) (P a : BitVec w) (d : Byte) :
    select (units P a) d.toNat = 0 ↔ mulmod P a (maskReg P d) = maskReg P d := by
  rw [select_units hw, ← BitVec.xor_eq_zero_iff]
  exact ⟨fun h => BitVec.eq_of_toNat_eq (by rw [BitVec.toNat_ofNat, Nat.zero_mod]; exact h), fun h => by rw [moved, h]; simp⟩

theorem cert_period {w : Nat} (hw : 0 < w) {P : BitVec w} {d : Byte} {c : Cert w} (hc : certOk P c = true)
    (hm : maskOk c d.toNat = true) (n : Nat) :
    rounds (step P) (8 * n) (maskReg P d) = maskReg P d ↔ c.k ∣ n := by
  simp only [certOk, Bool.and_eq_true, beq_iff_eq, List.all_eq_true, decide_eq_true_eq] at hc
  obtain ⟨⟨⟨⟨⟨⟨_, hp⟩, h1⟩, h2⟩, h3⟩, h9⟩, h4⟩ := hc
  simp only [maskOk, Bool.and_eq_true, List.all_eq_true, Nat.beq_eq, Bool.not_eq_true', ← Bool.not_eq_true] at hm
  obtain ⟨h7, h8⟩ := hm
  rw [← h9, select_zero hw] at h7
  generalize hv : maskReg P d = v at *
  have hpr : ∀ x ∈ c.qs, x.1.Prime := fun x hx => primes_prime x.1 (by simpa using hp x hx)
  have hk : Function.IsPeriodicPt (rounds (step P) 8) c.k v := by
    show (rounds (step P) 8)^[c.k] v = v
    rw [← rounds_mul, ← h2, rounds_eq_mulmod hw, h3, h7]
  have hd := hk.minimalPeriod_dvd
  have he : Function.minimalPeriod (rounds (step P) 8) v = c.k := by
    by_contra hne
    obtain ⟨j, hj⟩ := hd
    have hj1 : j ≠ 1 := by intro h; subst h; rw [Nat.mul_one] at hj; exact hne hj.symm
    obtain ⟨q, hq, hqj⟩ := Nat.exists_prime_and_dvd hj1
    have hqk : q ∣ c.k := by rw [hj]; exact hqj.mul_left _
    have hqk' : q ∣ (c.qs.map (·.1)).prod := by rw [h1]; exact hqk
    obtain ⟨a, ha, hqa⟩ := (Prime.dvd_prod_iff hq.prime).mp hqk'
    obtain ⟨x, hx, rfl⟩ := List.mem_map.mp ha
    have : q = x.1 := (Nat.prime_dvd_prime_iff_eq hq (hpr x hx)).mp hqa
    subst this
    obtain ⟨⟨h5, h6⟩, h10⟩ := h4 x hx
    apply h8 x hx
    rw [← h10, select_zero hw, hv, ← h6, ← rounds_eq_mulmod hw, h5, rounds_mul]
    show Function.IsPeriodicPt (rounds (step P) 8) (c.k / x.1) v
    rw [Function.isPeriodicPt_iff_minimalPeriod_dvd]
    obtain ⟨j', rfl⟩ := hqj
    refine ⟨j', ?_⟩
    have hq0 := hq.pos
    conv_lhs => rw [hj]
    rw [show Function.minimalPeriod (rounds (step P) 8) v * (x.1 * j') =
        x.1 * (Function.minimalPeriod (rounds (step P) 8) v * j') by ring, Nat.mul_div_cancel_left _ hq0]
  rw [rounds_mul, ← he, ← Function.isPeriodicPt_iff_minimalPeriod_dvd]
  rfl

/-- The same change of two bytes goes unnoticed exactly if so many zero bytes as they are apart take the register after the
mask to itself. -/
theorem same_change_iff {w : Nat} (p : Params w) (hp : p.poly.getLsbD 0 = true) (a mid z : List Byte) (u v d : Byte) :
    crc p (a ++ (u ^^^ d) :: (mid ++ (v ^^^ d) :: z)) = crc p (a ++ u :: (mid ++ v :: z)) ↔
      rounds (step p.poly) (8 * (mid.length + 1)) (maskReg p.poly (entering p.refin d)) =
        maskReg p.poly (entering p.refin d) := by
  have hz : ∀ l : List Byte, List.zipWith (· ^^^ ·) l l = List.replicate l.length 0#8 := by
    intro l
    apply List.ext_getElem
    · simp
    · intro i h1 h2; simp
  have hx : ∀ u : Byte, (u ^^^ d) ^^^ u = d := by
    intro u; rw [BitVec.xor_comm u d, BitVec.xor_assoc, BitVec.xor_self, BitVec.xor_zero]
  have hb : bitsOf p.refin d = bitsMSB (entering p.refin d) := (bitsOf_eq p.refin d).symm
  rw [crc_eq_iff p _ _ (by simp), ← bits_xor _ _ _ (by simp), List.zipWith_append rfl, List.zipWith_cons_cons,
    List.zipWith_append rfl, List.zipWith_cons_cons, hz, hz, hz, hx, hx, bits_append, crcBits_append, bits_zeros,
    crcBits_zeros, rounds_zero, bits_cons, crcBits_append, bits_append, crcBits_append, bits_zeros, crcBits_zeros,
    bits_cons, crcBits_append, bits_zeros, crcBits_zeros, hb]
  have h1 : ∀ r : BitVec w, crcBits p.poly r (bitsMSB (entering p.refin d)) =
      rounds (step p.poly) 8 r ^^^ maskReg p.poly (entering p.refin d) := by
    intro r
    have h := crcBits_xor p.poly (List.replicate 8 false) (bitsMSB (entering p.refin d)) r 0#w rfl
    rw [crcBits_zeros, BitVec.xor_zero] at h
    rw [maskReg, h]
    congr 1
    simp [bitsMSB]
  rw [h1 (rounds _ _ _), ← rounds_add, show 8 * mid.length + 8 = 8 * (mid.length + 1) by ring]
  constructor
  · intro h
    exact BitVec.xor_eq_zero_iff.mp (rounds_eq_zero hp _ h)
  · intro h
    rw [maskReg] at h ⊢
    rw [h, BitVec.xor_self, rounds_zero]

/-- The certificates of the 8-bit CRCs. -/
def certs8 : List (Byte × List (Cert 8)) :=
  [(0x07#8, [
      ⟨127, 0x01#8, [0, 0, 0, 0, 0, 0, 0, 0], [(127, 0x07#8, [18, 36, 72, 144, 39, 78, 156, 63])]⟩,
      ⟨1, 0x07#8, [18, 36, 72, 144, 39, 78, 156, 63], []⟩]),
    (0x1D#8, [
      ⟨255, 0x01#8, [0, 0, 0, 0, 0, 0, 0, 0], [(3, 0xD7#8, [182, 113, 226, 217, 175, 67, 134, 17]),
        (5, 0x92#8, [204, 133, 23, 46, 92, 184, 109, 218]),
        (17, 0x3B#8, [152, 45, 90, 180, 117, 234, 201, 143])]⟩]),
    (0x2F#8, [
      ⟨127, 0x01#8, [0, 0, 0, 0, 0, 0, 0, 0], [(127, 0x2F#8, [198, 163, 105, 210, 139, 57, 114, 228])]⟩,
      ⟨1, 0x2F#8, [198, 163, 105, 210, 139, 57, 114, 228], []⟩]),
    (0x31#8, [
      ⟨127, 0x01#8, [0, 0, 0, 0, 0, 0, 0, 0], [(127, 0x31#8, [197, 187, 71, 142, 45, 90, 180, 89])]⟩,
      ⟨1, 0x31#8, [197, 187, 71, 142, 45, 90, 180, 89], []⟩]),
    (0x39#8, [
      ⟨17, 0x01#8, [0, 0, 0, 0, 0, 0, 0, 0], [(17, 0x39#8, [165, 115, 230, 245, 211, 159, 7, 14])]⟩]),
    (0x9B#8, [
      ⟨127, 0x01#8, [0, 0, 0, 0, 0, 0, 0, 0], [(127, 0x9B#8, [141, 129, 153, 169, 201, 9, 18, 36])]⟩,
      ⟨1, 0x9B#8, [141, 129, 153, 169, 201, 9, 18, 36], []⟩]),
    (0xD5#8, [
      ⟨93, 0x01#8, [0, 0, 0, 0, 0, 0, 0, 0], [(3, 0x8F#8, [71, 142, 201, 71, 142, 201, 71, 142]),
        (31, 0x83#8, [144, 245, 63, 126, 252, 45, 90, 180])]⟩,
      ⟨31, 0x8F#8, [71, 142, 201, 71, 142, 201, 71, 142], [(31, 0xD5#8, [222, 105, 210, 113, 226, 17, 34, 68])]⟩,
      ⟨3, 0x83#8, [144, 245, 63, 126, 252, 45, 90, 180], [(3, 0xD5#8, [222, 105, 210, 113, 226, 17, 34, 68])]⟩,
      ⟨1, 0xD5#8, [222, 105, 210, 113, 226, 17, 34, 68], []⟩])]

/-- The certificates of the 16-bit CRCs. -/
def certs16 : List (U16 × List (Cert 16)) :=
  [(0x0589#16, [
      ⟨127, 0x0001#16, [0, 0, 0, 0, 0, 0, 0, 0], [(127, 0x0100#16, [40740, 15297, 30594, 61188, 56193, 45707, 24735, 49470])]⟩]),
    (0x1021#16, [
      ⟨32767, 0x0001#16, [0, 0, 0, 0, 0, 0, 0, 0], [(7, 0x2C42#16, [15148, 30296, 60592, 51521, 33443, 5479, 10958, 21916]),
        (31, 0xB3E8#16, [10073, 20146, 40292, 10985, 21970, 43940, 18281, 36562]),
        (151, 0xB262#16, [9386, 18772, 37544, 13681, 27362, 54724, 48041, 26483])]⟩]),
    (0x3D65#16, [
      ⟨151, 0x0001#16, [0, 0, 0, 0, 0, 0, 0, 0], [(151, 0x0100#16, [51645, 44575, 24923, 49846, 47113, 19831, 39662, 2233])]⟩]),
    (0x8005#16, [
      ⟨32767, 0x0001#16, [0, 0, 0, 0, 0, 0, 0, 0], [(7, 0x9631#16, [29866, 59732, 21165, 42330, 51889, 5479, 10958, 21916]),
        (31, 0x046A#16, [6522, 13044, 26088, 52176, 6053, 12106, 24212, 48424]),
        (151, 0xA304#16, [51732, 5165, 10330, 20660, 41320, 49877, 1455, 2910])]⟩]),
    (0x8BB7#16, [
      ⟨65535, 0x0001#16, [0, 0, 0, 0, 0, 0, 0, 0], [(3, 0xAAAE#16, [56661, 12573, 25146, 50292, 863, 1726, 3452, 6904]),
        (5, 0x1848#16, [62396, 27855, 55710, 14475, 28950, 57900, 20463, 40926]),
        (17, 0x0C17#16, [38992, 47895, 64921, 28805, 57610, 18851, 37702, 44347]),
        (257, 0xE37E#16, [30964, 61928, 26727, 53454, 10795, 21590, 43180, 56047])]⟩]),
    (0xA097#16, [
      ⟨16383, 0x0001#16, [0, 0, 0, 0, 0, 0, 0, 0], [(3, 0x0B14#16, [21154, 42308, 59935, 29865, 59730, 29235, 58470, 26715]),
        (43, 0xF8D4#16, [28363, 56726, 7099, 14198, 28396, 56792, 6951, 13902]),
        (127, 0xC008#16, [26034, 52068, 13919, 27838, 55676, 4719, 9438, 18876])]⟩]),
    (0xC867#16, [
      ⟨65535, 0x0001#16, [0, 0, 0, 0, 0, 0, 0, 0], [(3, 0x8A94#16, [15584, 31168, 62336, 12135, 24270, 48540, 45919, 44761]),
        (5, 0x0E41#16, [43214, 39419, 64401, 16197, 32394, 64788, 12879, 25758]),
        (17, 0xA3D1#16, [24612, 49224, 18679, 37358, 60347, 7953, 15906, 31812]),
        (257, 0xCD30#16, [53877, 27789, 55578, 31315, 62630, 8491, 16982, 33964])]⟩])]

/-- The certificates of the 32-bit CRCs. -/
def certs32 : List (U32 × List (Cert 32)) :=
  [(0x000000AF#32, [
      ⟨4294967295, 0x00000001#32, [0, 0, 0, 0, 0, 0, 0, 0], [(3, 0x6C33113E#32, [4209728738, 4124490091, 3954012793, 3613058141, 2931148821, 1567330437, 3134660874, 1974354619]),
        (5, 0xD35391E0#32, [1637646738, 3275293476, 2255619815, 216272225, 432544450, 865088900, 1730177800, 3460355600]),
        (17, 0x3DDEE1E0#32, [188967303, 377934606, 755869212, 1511738424, 3023476848, 1751986255, 3503972510, 2712977811]),
        (257, 0xAACF85D1#32, [1008782738, 2017565476, 4035130952, 3775294527, 3255621841, 2216276237, 137585333, 275170666]),
        (65537, 0x16C99CBD#32, [1808662147, 3617324294, 2939681443, 1584395753, 3168791506, 2042615563, 4085231126, 3875495043])]⟩]),
    (0x04C11DB7#32, [
      ⟨4294967295, 0x00000001#32, [0, 0, 0, 0, 0, 0, 0, 0], [(3, 0x4AD76CE2#32, [1887237394, 3774474788, 3308440063, 2393149001, 428343589, 856687178, 1713374356, 3426748712]),
        (5, 0x9EAE429D#32, [1141367451, 2282734902, 350132187, 700264374, 1400528748, 2801057496, 1227382791, 2454765582]),
        (17, 0xCC7643E1#32, [1351220963, 2702441926, 1189537339, 2379074678, 526026075, 1052052150, 2104104300, 4208208600]),
        (257, 0x0B96B5DB#32, [2009088609, 4018177218, 3686798387, 3007395281, 1648588309, 3297176618, 2379007459, 525899377]),
        (65537, 0x7561F209#32, [1431460420, 2862920840, 1367897255, 2735794510, 1122029355, 2244058710, 255992091, 511984182])]⟩]),
    (0x1EDC6F41#32, [
      ⟨2147483647, 0x00000001#32, [0, 0, 0, 0, 0, 0, 0, 0], [(2147483647, 0x00000100#32, [2172890270, 500905597, 1001811194, 2003622388, 4007244776, 3278833809, 2550300259, 785945479])]⟩]),
    (0x814141AB#32, [
      ⟨2147483647, 0x00000001#32, [0, 0, 0, 0, 0, 0, 0, 0], [(2147483647, 0x00000100#32, [21099161, 42198322, 84396644, 168793288, 337586576, 675173152, 1350346304, 2700692608])]⟩]),
    (0xA833982B#32, [
      ⟨65537, 0x00000001#32, [0, 0, 0, 0, 0, 0, 0, 0], [(65537, 0x00000100#32, [3826743208, 1612543867, 3225087734, 675694023, 1351388046, 2702776092, 3925980691, 2083582989])]⟩])]

/-- A row of the table for a mask. -/
def rowOk {w : Nat} (certs : List (BitVec w × List (Cert w))) (row : ExchangeRow w) (d : Byte) : Bool :=
  certs.any (fun c => c.1 == row.1 && c.2.any (fun c => c.k == distanceOf row d && maskOk c d.toNat))

theorem certs8_ok : ∀ x ∈ certs8, ∀ c ∈ x.2, certOk x.1 c = true := by decide +kernel
theorem certs16_ok : ∀ x ∈ certs16, ∀ c ∈ x.2, certOk x.1 c = true := by decide +kernel
theorem certs32_ok : ∀ x ∈ certs32, ∀ c ∈ x.2, certOk x.1 c = true := by decide +kernel

theorem rows8_ok : ∀ row ∈ exchange8, ∀ d : Byte, d ≠ 0#8 → rowOk certs8 row d = true := by decide +kernel
theorem rows16_ok : ∀ row ∈ exchange16, ∀ d : Byte, d ≠ 0#8 → rowOk certs16 row d = true := by decide +kernel
theorem rows32_ok : ∀ row ∈ exchange32, ∀ d : Byte, d ≠ 0#8 → rowOk certs32 row d = true := by decide +kernel

theorem row_period {w : Nat} (hw : 0 < w) {certs : List (BitVec w × List (Cert w))}
    (hc : ∀ x ∈ certs, ∀ c ∈ x.2, certOk x.1 c = true) {row : ExchangeRow w} {d : Byte} (hr : rowOk certs row d = true)
    (n : Nat) : rounds (step row.1) (8 * n) (maskReg row.1 d) = maskReg row.1 d ↔ distanceOf row d ∣ n := by
  simp only [rowOk, List.any_eq_true, Bool.and_eq_true, beq_iff_eq] at hr
  obtain ⟨x, hx, h1, c, hcm, h2, h3⟩ := hr
  have h4 := hc x hx c hcm
  rw [h1] at h4
  rw [cert_period hw h4 h3, h2]

theorem exchange_period {w : Nat} {row : ExchangeRow w} (hr : row ∈ exchanges w) {d : Byte} (hd : d ≠ 0#8) (n : Nat) :
    rounds (step row.1) (8 * n) (maskReg row.1 d) = maskReg row.1 d ↔ distanceOf row d ∣ n := by
  unfold exchanges at hr
  split at hr
  · exact row_period (by decide) certs8_ok (rows8_ok _ hr _ hd) n
  · exact row_period (by decide) certs16_ok (rows16_ok _ hr _ hd) n
  · exact row_period (by decide) certs32_ok (rows32_ok _ hr _ hd) n
  · exact absurd hr (List.not_mem_nil)

end IMU.Crc
