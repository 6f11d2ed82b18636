import Verif.Spec.Base64

/-!
# Slips in a Base64 text that a checksum does not notice

Each row: the checksum function, the place of the (first) wrong character in its group of four, and the exclusive or of
the 6-bit values.
-/

namespace IMU.Spec.Base64

/-- One wrong character. -/
def slips : List (String × Nat × Nat) := [("Crc8_wcdma", 1, 29)]

/-- Two neighbouring characters exchanged. -/
def swaps : List (String × Nat × Nat) := [
  ("Crc8_darc", 1, 21), ("Crc8_darc", 1, 42), ("Crc8_darc", 1, 63),
  ("Crc8_dvbS2", 0, 61), ("Crc8_dvbS2", 1, 61), ("Crc8_dvbS2", 2, 61), ("Crc8_dvbS2", 3, 61),
  ("Crc8_ebu", 1, 54), ("Crc8_maxim", 0, 43), ("Crc8_rohc", 1, 61), ("Crc8_rohc", 2, 22), ("Crc8_wcdma", 2, 57)]

end IMU.Spec.Base64
