import Verif.Spec.Crc

/-!
# The published parameters of the CRCs

Written from the standards' names of the variants ("Catalogue of parametrised CRC algorithms"), not from the C code:
polynomial, initial value, reflection and final xor, and the published checksum of the nine bytes "123456789".
`documented` lists the polynomials that the comments in /repo state for the function, with their places.
-/

namespace IMU.Spec.Crc

/-- One entry of the catalogue. -/
structure Entry (w : Nat) where
  name : String
  params : Params w
  check : BitVec w
  documented : List (BitVec w)

/-- The catalogue of the 8-bit CRCs. -/
def catalogue8 : List (Entry 8) := [
  -- Inc/crc/crc8_variants/crc8.h:44, Src/crc/crc8_variants/crc8.c:51
  ⟨"Crc8", ⟨0x07#8, 0x00#8, false, false, 0x00#8⟩, 0xF4#8, [0x07#8, 0x07#8]⟩,
  -- Inc/crc/crc8_variants/crc8_8h2f.h:41, Inc/crc/crc8_variants/crc8_8h2f.h:44, Src/crc/crc8_variants/crc8_8h2f.c:52
  ⟨"Crc8_8h2f", ⟨0x2F#8, 0xFF#8, false, false, 0xFF#8⟩, 0xDF#8, [0x2F#8, 0x2F#8, 0x2F#8]⟩,
  -- Inc/crc/crc8_variants/crc8_cdma2000.h:41, Inc/crc/crc8_variants/crc8_cdma2000.h:44, Src/crc/crc8_variants/crc8_cdma2000.c:51
  ⟨"Crc8_cdma2000", ⟨0x9B#8, 0xFF#8, false, false, 0x00#8⟩, 0xDA#8, [0x9B#8, 0x9B#8, 0x9B#8]⟩,
  -- Inc/crc/crc8_variants/crc8_darc.h:41, Inc/crc/crc8_variants/crc8_darc.h:44, Src/crc/crc8_variants/crc8_darc.c:52
  ⟨"Crc8_darc", ⟨0x39#8, 0x00#8, true, true, 0x00#8⟩, 0x15#8, [0x39#8, 0x39#8, 0x39#8]⟩,
  -- Inc/crc/crc8_variants/crc8_dvb_s2.h:43, Src/crc/crc8_variants/crc8_dvb_s2.c:51
  ⟨"Crc8_dvbS2", ⟨0xD5#8, 0x00#8, false, false, 0x00#8⟩, 0xBC#8, [0xD5#8, 0xD5#8]⟩,
  -- Inc/crc/crc8_variants/crc8_ebu.h:41, Inc/crc/crc8_variants/crc8_ebu.h:44, Src/crc/crc8_variants/crc8_ebu.c:52
  ⟨"Crc8_ebu", ⟨0x1D#8, 0xFF#8, true, true, 0x00#8⟩, 0x97#8, [0x1D#8, 0x1D#8, 0x1D#8]⟩,
  -- Inc/crc/crc8_variants/crc8_icode.h:41, Inc/crc/crc8_variants/crc8_icode.h:44, Src/crc/crc8_variants/crc8_icode.c:51
  ⟨"Crc8_icode", ⟨0x1D#8, 0xFD#8, false, false, 0x00#8⟩, 0x7E#8, [0x1D#8, 0x1D#8, 0x1D#8]⟩,
  -- Inc/crc/crc8_variants/crc8_itu.h:41, Inc/crc/crc8_variants/crc8_itu.h:44, Src/crc/crc8_variants/crc8_itu.c:52
  ⟨"Crc8_itu", ⟨0x07#8, 0x00#8, false, false, 0x55#8⟩, 0xA1#8, [0x07#8, 0x07#8, 0x07#8]⟩,
  -- Inc/crc/crc8_variants/crc8_maxim.h:41, Inc/crc/crc8_variants/crc8_maxim.h:44, Src/crc/crc8_variants/crc8_maxim.c:52
  ⟨"Crc8_maxim", ⟨0x31#8, 0x00#8, true, true, 0x00#8⟩, 0xA1#8, [0x31#8, 0x31#8, 0x31#8]⟩,
  -- Inc/crc/crc8_variants/crc8_rohc.h:41, Inc/crc/crc8_variants/crc8_rohc.h:44, Src/crc/crc8_variants/crc8_rohc.c:52
  ⟨"Crc8_rohc", ⟨0x07#8, 0xFF#8, true, true, 0x00#8⟩, 0xD0#8, [0x07#8, 0x07#8, 0x07#8]⟩,
  -- Inc/crc/crc8_variants/crc8_sae_j1850.h:41, Inc/crc/crc8_variants/crc8_sae_j1850.h:44, Src/crc/crc8_variants/crc8_sae_j1850.c:52
  ⟨"Crc8_saeJ1850", ⟨0x1D#8, 0xFF#8, false, false, 0xFF#8⟩, 0x4B#8, [0x1D#8, 0x1D#8, 0x1D#8]⟩,
  -- Inc/crc/crc8_variants/crc8_sae_j1850_zero.h:41, Inc/crc/crc8_variants/crc8_sae_j1850_zero.h:44, Src/crc/crc8_variants/crc8_sae_j1850_zero.c:51
  ⟨"Crc8_saeJ1850Zero", ⟨0x1D#8, 0x00#8, false, false, 0x00#8⟩, 0x37#8, [0x1D#8, 0x1D#8, 0x1D#8]⟩,
  -- Inc/crc/crc8_variants/crc8_wcdma.h:41, Inc/crc/crc8_variants/crc8_wcdma.h:44, Src/crc/crc8_variants/crc8_wcdma.c:52
  ⟨"Crc8_wcdma", ⟨0x9B#8, 0x00#8, true, true, 0x00#8⟩, 0x25#8, [0x9B#8, 0x9B#8, 0x9B#8]⟩]

/-- The catalogue of the 16-bit CRCs. -/
def catalogue16 : List (Entry 16) := [
  -- Inc/crc/crc16_variants/crc16_a.h:41, Inc/crc/crc16_variants/crc16_a.h:44, Src/crc/crc16_variants/crc16_a.c:52
  ⟨"Crc16_a", ⟨0x1021#16, 0xC6C6#16, true, true, 0x0000#16⟩, 0xBF05#16, [0x1021#16, 0x1021#16, 0x1021#16]⟩,
  -- Inc/crc/crc16_variants/crc16_arc.h:41, Inc/crc/crc16_variants/crc16_arc.h:44, Src/crc/crc16_variants/crc16_arc.c:52
  ⟨"Crc16_arc", ⟨0x8005#16, 0x0000#16, true, true, 0x0000#16⟩, 0xBB3D#16, [0x8005#16, 0x8005#16, 0x8005#16]⟩,
  -- Inc/crc/crc16_variants/crc16_aug_ccit.h:41, Inc/crc/crc16_variants/crc16_aug_ccit.h:44, Src/crc/crc16_variants/crc16_aug_ccit.c:51
  ⟨"Crc16_augCcit", ⟨0x1021#16, 0x1D0F#16, false, false, 0x0000#16⟩, 0xE5CC#16, [0x1021#16, 0x1021#16, 0x1021#16]⟩,
  -- Inc/crc/crc16_variants/crc16_buypass.h:41, Inc/crc/crc16_variants/crc16_buypass.h:44, Src/crc/crc16_variants/crc16_buypass.c:51
  ⟨"Crc16_buypass", ⟨0x8005#16, 0x0000#16, false, false, 0x0000#16⟩, 0xFEE8#16, [0x8005#16, 0x8005#16, 0x8005#16]⟩,
  -- Inc/crc/crc16_variants/crc16_ccit_false.h:41, Inc/crc/crc16_variants/crc16_ccit_false.h:44, Src/crc/crc16_variants/crc16_ccit_false.c:51
  ⟨"Crc16_ccitFalse", ⟨0x1021#16, 0xFFFF#16, false, false, 0x0000#16⟩, 0x29B1#16, [0x1021#16, 0x1021#16, 0x1021#16]⟩,
  -- Inc/crc/crc16_variants/crc16_ccit_zero.h:42, Inc/crc/crc16_variants/crc16_ccit_zero.h:45, Src/crc/crc16_variants/crc16_ccit_zero.c:51
  ⟨"Crc16_ccitZero", ⟨0x1021#16, 0x0000#16, false, false, 0x0000#16⟩, 0x31C3#16, [0x1021#16, 0x1021#16, 0x1021#16]⟩,
  -- Inc/crc/crc16_variants/crc16_cdma2000.h:41, Inc/crc/crc16_variants/crc16_cdma2000.h:44, Src/crc/crc16_variants/crc16_cdma2000.c:51
  ⟨"Crc16_cdma2000", ⟨0xC867#16, 0xFFFF#16, false, false, 0x0000#16⟩, 0x4C06#16, [0xC867#16, 0xC867#16, 0xC867#16]⟩,
  -- Inc/crc/crc16_variants/crc16_dds110.h:41, Inc/crc/crc16_variants/crc16_dds110.h:44, Src/crc/crc16_variants/crc16_dds110.c:51
  ⟨"Crc16_dds110", ⟨0x8005#16, 0x800D#16, false, false, 0x0000#16⟩, 0x9ECF#16, [0x8005#16, 0x8005#16, 0x8005#16]⟩,
  -- Inc/crc/crc16_variants/crc16_dect_r.h:41, Inc/crc/crc16_variants/crc16_dect_r.h:44, Src/crc/crc16_variants/crc16_dect_r.c:52
  ⟨"Crc16_dectR", ⟨0x0589#16, 0x0000#16, false, false, 0x0001#16⟩, 0x007E#16, [0x0589#16, 0x0589#16, 0x0589#16]⟩,
  -- Inc/crc/crc16_variants/crc16_dect_x.h:41, Inc/crc/crc16_variants/crc16_dect_x.h:44, Src/crc/crc16_variants/crc16_dect_x.c:51
  ⟨"Crc16_dectX", ⟨0x0589#16, 0x0000#16, false, false, 0x0000#16⟩, 0x007F#16, [0x0589#16, 0x0589#16, 0x0589#16]⟩,
  -- Inc/crc/crc16_variants/crc16_dnp.h:41, Inc/crc/crc16_variants/crc16_dnp.h:44, Src/crc/crc16_variants/crc16_dnp.c:52
  ⟨"Crc16_dnp", ⟨0x3D65#16, 0x0000#16, true, true, 0xFFFF#16⟩, 0xEA82#16, [0x3D65#16, 0x3D65#16, 0x3D65#16]⟩,
  -- Inc/crc/crc16_variants/crc16_en_13757.h:41, Inc/crc/crc16_variants/crc16_en_13757.h:44, Src/crc/crc16_variants/crc16_en_13757.c:52
  ⟨"Crc16_en13757", ⟨0x3D65#16, 0x0000#16, false, false, 0xFFFF#16⟩, 0xC2B7#16, [0x3D65#16, 0x3D65#16, 0x3D65#16]⟩,
  -- Inc/crc/crc16_variants/crc16_genibus.h:41, Inc/crc/crc16_variants/crc16_genibus.h:44, Src/crc/crc16_variants/crc16_genibus.c:52
  ⟨"Crc16_genibus", ⟨0x1021#16, 0xFFFF#16, false, false, 0xFFFF#16⟩, 0xD64E#16, [0x1021#16, 0x1021#16, 0x1021#16]⟩,
  -- Inc/crc/crc16_variants/crc16_kermit.h:41, Inc/crc/crc16_variants/crc16_kermit.h:44, Src/crc/crc16_variants/crc16_kermit.c:52
  ⟨"Crc16_kermit", ⟨0x1021#16, 0x0000#16, true, true, 0x0000#16⟩, 0x2189#16, [0x1021#16, 0x1021#16, 0x1021#16]⟩,
  -- Inc/crc/crc16_variants/crc16_maxim.h:41, Inc/crc/crc16_variants/crc16_maxim.h:44, Src/crc/crc16_variants/crc16_maxim.c:52
  ⟨"Crc16_maxim", ⟨0x8005#16, 0x0000#16, true, true, 0xFFFF#16⟩, 0x44C2#16, [0x8005#16, 0x8005#16, 0x8005#16]⟩,
  -- Inc/crc/crc16_variants/crc16_mcrf4xx.h:41, Inc/crc/crc16_variants/crc16_mcrf4xx.h:44, Src/crc/crc16_variants/crc16_mcrf4xx.c:52
  ⟨"Crc16_mcrf4xx", ⟨0x1021#16, 0xFFFF#16, true, true, 0x0000#16⟩, 0x6F91#16, [0x1021#16, 0x1021#16, 0x1021#16]⟩,
  -- Inc/crc/crc16_variants/crc16_modbus.h:41, Inc/crc/crc16_variants/crc16_modbus.h:44, Src/crc/crc16_variants/crc16_modbus.c:52
  ⟨"Crc16_modbus", ⟨0x8005#16, 0xFFFF#16, true, true, 0x0000#16⟩, 0x4B37#16, [0x8005#16, 0x8005#16, 0x8005#16]⟩,
  -- Inc/crc/crc16_variants/crc16_riello.h:41, Inc/crc/crc16_variants/crc16_riello.h:44, Src/crc/crc16_variants/crc16_riello.c:52
  ⟨"Crc16_riello", ⟨0x1021#16, 0xB2AA#16, true, true, 0x0000#16⟩, 0x63D0#16, [0x1021#16, 0x1021#16, 0x1021#16]⟩,
  -- Inc/crc/crc16_variants/crc16_t10_dif.h:41, Inc/crc/crc16_variants/crc16_t10_dif.h:44, Src/crc/crc16_variants/crc16_t10_dif.c:51
  ⟨"Crc16_t10Dif", ⟨0x8BB7#16, 0x0000#16, false, false, 0x0000#16⟩, 0xD0DB#16, [0x8BB7#16, 0x8BB7#16, 0x8BB7#16]⟩,
  -- Inc/crc/crc16_variants/crc16_teledisk.h:41, Inc/crc/crc16_variants/crc16_teledisk.h:44, Src/crc/crc16_variants/crc16_teledisk.c:51
  ⟨"Crc16_teledisk", ⟨0xA097#16, 0x0000#16, false, false, 0x0000#16⟩, 0x0FB3#16, [0xA097#16, 0xA097#16, 0xA097#16]⟩,
  -- Inc/crc/crc16_variants/crc16_tms37157.h:41, Inc/crc/crc16_variants/crc16_tms37157.h:44, Src/crc/crc16_variants/crc16_tms37157.c:52
  ⟨"Crc16_tms37157", ⟨0x1021#16, 0x89EC#16, true, true, 0x0000#16⟩, 0x26B1#16, [0x1021#16, 0x1021#16, 0x1021#16]⟩,
  -- Inc/crc/crc16_variants/crc16_usb.h:41, Inc/crc/crc16_variants/crc16_usb.h:44, Src/crc/crc16_variants/crc16_usb.c:52
  ⟨"Crc16_usb", ⟨0x8005#16, 0xFFFF#16, true, true, 0xFFFF#16⟩, 0xB4C8#16, [0x8005#16, 0x8005#16, 0x8005#16]⟩,
  -- Inc/crc/crc16_variants/crc16_x_25.h:41, Inc/crc/crc16_variants/crc16_x_25.h:44, Src/crc/crc16_variants/crc16_x_25.c:52
  ⟨"Crc16_x25", ⟨0x1021#16, 0xFFFF#16, true, true, 0xFFFF#16⟩, 0x906E#16, [0x1021#16, 0x1021#16, 0x1021#16]⟩]

/-- The catalogue of the 32-bit CRCs. -/
def catalogue32 : List (Entry 32) := [
  -- Inc/crc/crc32_variants/crc32.h:41, Inc/crc/crc32_variants/crc32.h:44, Src/crc/crc32_variants/crc32.c:52
  ⟨"Crc32", ⟨0x04C11DB7#32, 0xFFFFFFFF#32, true, true, 0xFFFFFFFF#32⟩, 0xCBF43926#32, [0x04C11DB7#32, 0x04C11DB7#32, 0x04C11DB7#32]⟩,
  -- Inc/crc/crc32_variants/crc32_bzip2.h:41, Inc/crc/crc32_variants/crc32_bzip2.h:44, Src/crc/crc32_variants/crc32_bzip2.c:52
  ⟨"Crc32_bzip2", ⟨0x04C11DB7#32, 0xFFFFFFFF#32, false, false, 0xFFFFFFFF#32⟩, 0xFC891918#32, [0x04C11DB7#32, 0x04C11DB7#32, 0x04C11DB7#32]⟩,
  -- Inc/crc/crc32_variants/crc32_c.h:41, Inc/crc/crc32_variants/crc32_c.h:44, Src/crc/crc32_variants/crc32_c.c:52
  ⟨"Crc32_c", ⟨0x1EDC6F41#32, 0xFFFFFFFF#32, true, true, 0xFFFFFFFF#32⟩, 0xE3069283#32, [0x1EDC6F41#32, 0x1EDC6F41#32, 0x1EDC6F41#32]⟩,
  -- Inc/crc/crc32_variants/crc32_d.h:41, Inc/crc/crc32_variants/crc32_d.h:44, Src/crc/crc32_variants/crc32_d.c:52
  ⟨"Crc32_d", ⟨0xA833982B#32, 0xFFFFFFFF#32, true, true, 0xFFFFFFFF#32⟩, 0x87315576#32, [0x04C11DB7#32, 0x04C11DB7#32, 0xA833982B#32]⟩,
  -- Inc/crc/crc32_variants/crc32_jamcrc.h:41, Inc/crc/crc32_variants/crc32_jamcrc.h:44, Src/crc/crc32_variants/crc32_jamcrc.c:52
  ⟨"Crc32_jamcrc", ⟨0x04C11DB7#32, 0xFFFFFFFF#32, true, true, 0x00000000#32⟩, 0x340BC6D9#32, [0x04C11DB7#32, 0x04C11DB7#32, 0x04C11DB7#32]⟩,
  -- Inc/crc/crc32_variants/crc32_mpeg2.h:41, Inc/crc/crc32_variants/crc32_mpeg2.h:44, Src/crc/crc32_variants/crc32_mpeg2.c:51
  ⟨"Crc32_mpeg2", ⟨0x04C11DB7#32, 0xFFFFFFFF#32, false, false, 0x00000000#32⟩, 0x0376E6E7#32, [0x04C11DB7#32, 0x04C11DB7#32, 0x04C11DB7#32]⟩,
  -- Inc/crc/crc32_variants/crc32_posix.h:41, Inc/crc/crc32_variants/crc32_posix.h:44, Src/crc/crc32_variants/crc32_posix.c:52
  ⟨"Crc32_posix", ⟨0x04C11DB7#32, 0x00000000#32, false, false, 0xFFFFFFFF#32⟩, 0x765E7680#32, [0xA833982B#32, 0xA833982B#32, 0x04C11DB7#32]⟩,
  -- Inc/crc/crc32_variants/crc32_q.h:41, Inc/crc/crc32_variants/crc32_q.h:44, Src/crc/crc32_variants/crc32_q.c:51
  ⟨"Crc32_q", ⟨0x814141AB#32, 0x00000000#32, false, false, 0x00000000#32⟩, 0x3010BF7F#32, [0x000000AF#32, 0x04C11DB7#32, 0x04C11DB7#32]⟩,
  -- Inc/crc/crc32_variants/crc32_xfer.h:41, Inc/crc/crc32_variants/crc32_xfer.h:44, Src/crc/crc32_variants/crc32_xfer.c:51
  ⟨"Crc32_xfer", ⟨0x000000AF#32, 0x00000000#32, false, false, 0x00000000#32⟩, 0xBD0BE338#32, [0x04C11DB7#32, 0x04C11DB7#32, 0x000000AF#32]⟩]

end IMU.Spec.Crc
