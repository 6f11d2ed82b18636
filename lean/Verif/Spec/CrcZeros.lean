import Verif.Spec.CrcErrors

/-! # Zero bytes gained or lost at the ends of a message -/

namespace IMU.Spec.Crc

/-- `n` zero bytes. -/
def zeros (n : Nat) : List Byte := List.replicate n 0#8

/-- For every function: the numbers of zero bytes of which the number of zero bytes gained or lost has to be a multiple to
go unnoticed, in front of a message and behind a message with its checksum. -/
def zeroPeriods : List (String × Nat × Nat) :=
  [("Crc8", 1, 1), ("Crc8_8h2f", 127, 127), ("Crc8_cdma2000", 127, 1), ("Crc8_darc", 1, 1), ("Crc8_dvbS2", 1, 1),
    ("Crc8_ebu", 255, 1), ("Crc8_icode", 255, 1), ("Crc8_itu", 1, 127), ("Crc8_maxim", 1, 1), ("Crc8_rohc", 127, 1),
    ("Crc8_saeJ1850", 255, 255), ("Crc8_saeJ1850Zero", 1, 1), ("Crc8_wcdma", 1, 1), ("Crc16_a", 32767, 1),
    ("Crc16_arc", 1, 1), ("Crc16_augCcit", 32767, 1), ("Crc16_buypass", 1, 1), ("Crc16_ccitFalse", 32767, 1),
    ("Crc16_ccitZero", 1, 1), ("Crc16_cdma2000", 65535, 1), ("Crc16_dds110", 32767, 1), ("Crc16_dectR", 1, 127),
    ("Crc16_dectX", 1, 1), ("Crc16_dnp", 1, 151), ("Crc16_en13757", 1, 151), ("Crc16_genibus", 32767, 32767),
    ("Crc16_kermit", 1, 1), ("Crc16_maxim", 1, 32767), ("Crc16_mcrf4xx", 32767, 1), ("Crc16_modbus", 32767, 1),
    ("Crc16_riello", 32767, 1), ("Crc16_t10Dif", 1, 1), ("Crc16_teledisk", 1, 1), ("Crc16_tms37157", 32767, 1),
    ("Crc16_usb", 32767, 32767), ("Crc16_x25", 32767, 32767), ("Crc32", 4294967295, 4294967295),
    ("Crc32_bzip2", 4294967295, 4294967295), ("Crc32_c", 2147483647, 2147483647), ("Crc32_d", 65537, 65537),
    ("Crc32_jamcrc", 4294967295, 1), ("Crc32_mpeg2", 4294967295, 1), ("Crc32_posix", 1, 4294967295),
    ("Crc32_q", 1, 1), ("Crc32_xfer", 1, 1)]

end IMU.Spec.Crc
