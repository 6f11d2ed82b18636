import Verif.C.Leak
import Verif.Model.ChaCha20
import Verif.Model.Crc
import Verif.Model.Vernam

/-!
# ChaCha20, CRC, Base64 encoding and the Vernam cipher with an observer

The same code as in `Verif/Model/ChaCha20.lean`, `Crc.lean`, `Base64.lean` and `Vernam.lean`, line by line, showing the
memory accesses, table lookups and branches of the C text (`Props/Leak.lean` shows that without the observer it is the
same).  Local scalar variables live in registers.  Simplification: a byte that the C text reads several times in one
expression or statement is read once; the address is the same.
-/

namespace IMU.ChaCha
open Utils

/-- Src/utils.c:244-252 `Utils_deserialize32LE`. -/
def deserialize32LET (buf : Ptr) : T U32 := do
  let b3 ← loadT (buf.addN 3)
  let b2 ← loadT (buf.addN 2)
  let b1 ← loadT (buf.addN 1)
  let b0 ← loadT (buf.addN 0)
  return (((b3.setWidth 32 <<< 24) ||| (b2.setWidth 32 <<< 16)) ||| (b1.setWidth 32 <<< 8)) |||
    b0.setWidth 32

/-- Src/utils.c:210-216 `Utils_serialize32LE`. -/
def serialize32LET (buf : Ptr) (value : U32) : T Unit := do
  storeT (buf.addN 3) ((value >>> 24).setWidth 8 &&& 0xFF#8)
  storeT (buf.addN 2) ((value >>> 16).setWidth 8 &&& 0xFF#8)
  storeT (buf.addN 1) ((value >>> 8).setWidth 8 &&& 0xFF#8)
  storeT (buf.addN 0) (value.setWidth 8 &&& 0xFF#8)

/-- Src/crypto/chacha20.c:80-95 and again 108-123. -/
def readWordsT (key : Ptr) (counter : U32) (nonce : Ptr) : T Vars := do
  let x4 ← deserialize32LET (key.addN 0)
  let x5 ← deserialize32LET (key.addN 4)
  let x6 ← deserialize32LET (key.addN 8)
  let x7 ← deserialize32LET (key.addN 12)
  let x8 ← deserialize32LET (key.addN 16)
  let x9 ← deserialize32LET (key.addN 20)
  let x10 ← deserialize32LET (key.addN 24)
  let x11 ← deserialize32LET (key.addN 28)
  let x13 ← deserialize32LET (nonce.addN 0)
  let x14 ← deserialize32LET (nonce.addN 4)
  let x15 ← deserialize32LET (nonce.addN 8)
  return ⟨0x61707865#32, 0x3320646e#32, 0x79622d32#32, 0x6b206574#32, x4, x5, x6, x7, x8, x9, x10, x11,
    counter, x13, x14, x15⟩

/-- Src/crypto/chacha20.c:76-142 `Block`.  The quarter rounds (64-74) only compute with registers. -/
def blockT (key : Ptr) (counter : U32) (nonce : Ptr) (out : Ptr) : T Unit := do
  let x ← readWordsT key counter nonce
  let x ← forNT 10 0 (fun _ x => T.quiet (rounds x)) x
  let y ← readWordsT key counter nonce
  serialize32LET (out.addN 0) (x.x0 + y.x0)
  serialize32LET (out.addN 4) (x.x1 + y.x1)
  serialize32LET (out.addN 8) (x.x2 + y.x2)
  serialize32LET (out.addN 12) (x.x3 + y.x3)
  serialize32LET (out.addN 16) (x.x4 + y.x4)
  serialize32LET (out.addN 20) (x.x5 + y.x5)
  serialize32LET (out.addN 24) (x.x6 + y.x6)
  serialize32LET (out.addN 28) (x.x7 + y.x7)
  serialize32LET (out.addN 32) (x.x8 + y.x8)
  serialize32LET (out.addN 36) (x.x9 + y.x9)
  serialize32LET (out.addN 40) (x.x10 + y.x10)
  serialize32LET (out.addN 44) (x.x11 + y.x11)
  serialize32LET (out.addN 48) (x.x12 + y.x12)
  serialize32LET (out.addN 52) (x.x13 + y.x13)
  serialize32LET (out.addN 56) (x.x14 + y.x14)
  serialize32LET (out.addN 60) (x.x15 + y.x15)

/-- Src/crypto/chacha20.c:155-162 and 164-171. -/
def cryptBlockT (ks : Nat) (plaintext key nonce : Ptr) (inc : U32) (result : Ptr) (j : U32) (n : Nat) : T Unit :=
  localArrayT ks (List.replicate 64 0#8) (do
    blockT key (j + inc) nonce (ptr ks 0)
    forNT n 0 (fun i _ => do
      let p ← loadT (plaintext.addN (j * 64#32 + BitVec.ofNat 32 i).toNat)
      let k ← loadT ((ptr ks 0).addN i)
      storeT (result.addN (j * 64#32 + BitVec.ofNat 32 i).toNat) (p ^^^ k)) ())

/-- Src/crypto/chacha20.c:144-172 `Chacha20_crypt`. -/
def cryptT (ks : Nat) (plaintext : Ptr) (plaintext_len : U32) (key nonce : Ptr) (inc : U32) (result : Ptr) :
    T Unit := do
  let blocks := plaintext_len / 64#32
  let remaining_bytes := plaintext_len % 64#32
  forNT blocks.toNat 0 (fun j _ => cryptBlockT ks plaintext key nonce inc result (BitVec.ofNat 32 j) 64) ()
  let c ← T.branch (decide (0#32 ≠ remaining_bytes))
  if c then cryptBlockT ks plaintext key nonce inc result blocks remaining_bytes.toNat
  else return ()

end IMU.ChaCha

namespace IMU.Crc

/-- Src/bit_manipulation.c:47-57, the loop of `BitManipulation_reflect`: a branch for every round and for every bit. -/
def reflectLoopT (n_bits : Byte) : Nat → Nat → U32 → U32 → T U32
  | 0, _, _, reflection => do
    let _ ← T.branch false
    return reflection
  | n + 1, bit, temp_data, reflection => do
    let _ ← T.branch true
    let c ← T.branch (decide (temp_data &&& 1#32 = 1#32))
    if c then do
      let s ← T.quiet (match Bits.shl 1#32 (0x1F#32 &&& ((n_bits.setWidth 32 - 1#32) - BitVec.ofNat 32 bit)) with
        | some s => pure s
        | none => C.ub .shiftRange)
      reflectLoopT n_bits n (bit + 1) (temp_data >>> 1) (reflection ||| s)
    else reflectLoopT n_bits n (bit + 1) (temp_data >>> 1) reflection

/-- Src/bit_manipulation.c:39-60 `BitManipulation_reflect`. -/
def reflectT (data : U32) (n_bits : Byte) : T U32 := reflectLoopT n_bits n_bits.toNat 0 data 0#32

/-- Src/crc/crc8_base.c:77-84, Src/crc/crc16_base.c:77-84, Src/crc/crc32_base.c:77-84: the byte to be processed. -/
def inputT (crc_data_ptr : Ptr) (reflected_input : Bool) (counter : Nat) : T Byte := do
  let r ← T.branch reflected_input
  let d ← loadT (crc_data_ptr.addN counter)
  if r then do
    let r ← reflectT (d.setWidth 32) 8#8
    return r.setWidth 8
  else return d

/-- Src/crc/crc8_base.c:76-88. -/
def round8T (crc_table : List Byte) (crc_data_ptr : Ptr) (reflected_input : Bool) (counter : Nat) (crc : Byte) : T Byte := do
  let temp ← inputT crc_data_ptr reflected_input counter
  let crc := crc ^^^ temp
  constAtT crc_table crc.toNat

/-- Src/crc/crc16_base.c:76-87. -/
def round16T (crc_table : List U16) (crc_data_ptr : Ptr) (reflected_input : Bool) (counter : Nat) (crc : U16) : T U16 := do
  let temp ← inputT crc_data_ptr reflected_input counter
  let e ← constAtT crc_table ((crc.setWidth 32 >>> 8 ^^^ temp.setWidth 32).setWidth 8).toNat
  return (crc.setWidth 32 <<< 8 ^^^ e.setWidth 32).setWidth 16

/-- Src/crc/crc32_base.c:76-88. -/
def round32T (crc_table : List U32) (crc_data_ptr : Ptr) (reflected_input : Bool) (counter : Nat) (crc : U32) : T U32 := do
  let temp ← inputT crc_data_ptr reflected_input counter
  let e ← constAtT crc_table ((crc >>> 24 ^^^ temp.setWidth 32).setWidth 8).toNat
  return crc <<< 8 ^^^ e

/-- Src/crc/crc8_base.c:90-97, Src/crc/crc16_base.c:89-96, Src/crc/crc32_base.c:90-97; `n_bits` is the width. -/
def finishT {w : Nat} (n_bits : Byte) (crc final_xor_value : BitVec w) (reflected_output final_xor : Bool) :
    T (BitVec w) := do
  let c ← T.branch reflected_output
  let crc ← (if c then do
      let r ← reflectT (crc.setWidth 32) n_bits
      return r.setWidth w
    else return crc)
  let x ← T.branch final_xor
  return if x then crc ^^^ final_xor_value else crc

/-- Src/crc/crc8_base.c:62-98 `Crc8Base`. -/
def base8T (crc_table : List Byte) (crc_data_ptr : Ptr) (crc_length : U32) (crc_initial_value final_xor_value : Byte)
    (reflected_output reflected_input final_xor : Bool) : T Byte := do
  let crc ← forNT crc_length.toNat 0 (round8T crc_table crc_data_ptr reflected_input) crc_initial_value
  finishT 8#8 crc final_xor_value reflected_output final_xor

/-- Src/crc/crc16_base.c:62-97 `Crc16Base`. -/
def base16T (crc_table : List U16) (crc_data_ptr : Ptr) (crc_length : U32) (crc_initial_value final_xor_value : U16)
    (reflected_output reflected_input final_xor : Bool) : T U16 := do
  let crc ← forNT crc_length.toNat 0 (round16T crc_table crc_data_ptr reflected_input) crc_initial_value
  finishT 16#8 crc final_xor_value reflected_output final_xor

/-- Src/crc/crc32_base.c:62-98 `Crc32Base`. -/
def base32T (crc_table : List U32) (crc_data_ptr : Ptr) (crc_length : U32) (crc_initial_value final_xor_value : U32)
    (reflected_output reflected_input final_xor : Bool) : T U32 := do
  let crc ← forNT crc_length.toNat 0 (round32T crc_table crc_data_ptr reflected_input) crc_initial_value
  finishT 32#8 crc final_xor_value reflected_output final_xor

end IMU.Crc

namespace IMU.Base64

/-- `*pos = base64_table[i]`, as in Src/base64.c:63. -/
def putIdxT (pos : Ptr) (i : U32) : T Unit := do
  let v ← constAtT base64_table i.toNat
  storeT pos v

/-- Src/base64.c:63-69. -/
def encGroupT (inp pos : Ptr) : T Unit := do
  let a ← loadT inp
  putIdxT pos (u32 a >>> 2)
  let a ← loadT inp
  let b ← loadT (inp.addN 1)
  putIdxT (pos.addN 1) (((u32 a &&& 0x03#32) <<< 4) ||| (u32 b >>> 4))
  let b ← loadT (inp.addN 1)
  let c ← loadT (inp.addN 2)
  putIdxT (pos.addN 2) (((u32 b &&& 0x0F#32) <<< 2) ||| (u32 c >>> 6))
  let c ← loadT (inp.addN 2)
  putIdxT (pos.addN 3) (u32 c &&& 0x3F#32)

/-- Src/base64.c:57-75. -/
def encLoopT (data_length max_result_length : SizeT) (fuel : Nat) (s : EncState) : T EncState :=
  match fuel with
  | 0 => T.quiet (C.ub .fuel)
  | fuel + 1 => do
    let c ← T.branch (decide (3#64 ≤ data_length - s.in_position))
    if c then do
      let current_length := s.current_length + 4#64
      let c ← T.branch (decide (max_result_length < current_length))
      if c then return { s with current_length := current_length, success := 1 }
      else do
        encGroupT s.inp s.pos
        encLoopT data_length max_result_length fuel
          { inp := s.inp.addN 3, pos := s.pos.addN 4, in_position := s.in_position + 3#64,
            current_length := current_length, success := s.success }
    else return s

/-- Src/base64.c:84-99. -/
def encLastT (data_length in_position : SizeT) (inp pos : Ptr) : T Ptr := do
  let a ← loadT inp
  putIdxT pos (u32 a >>> 2)
  let c ← T.branch (decide (data_length - in_position = 1#64))
  if c then do
    let a ← loadT inp
    putIdxT (pos.addN 1) ((u32 a &&& 0x03#32) <<< 4)
    storeT (pos.addN 2) 61#8
  else do
    let a ← loadT inp
    let b ← loadT (inp.addN 1)
    putIdxT (pos.addN 1) (((u32 a &&& 0x03#32) <<< 4) ||| (u32 b >>> 4))
    let b ← loadT (inp.addN 1)
    putIdxT (pos.addN 2) ((u32 b &&& 0x0F#32) <<< 2)
  storeT (pos.addN 3) 61#8
  return pos.addN 4

/-- Src/base64.c:77-105. -/
def encTailT (data_length max_result_length : SizeT) (s : EncState) : T Int := do
  let c ← T.branch (decide (s.success = 0 ∧ data_length - s.in_position ≠ 0#64))
  if c then do
    let current_length := s.current_length + 4#64
    let c ← T.branch (decide (max_result_length < current_length))
    if c then do
      storeT s.pos 0#8
      return 1
    else do
      let pos ← encLastT data_length s.in_position s.inp s.pos
      storeT pos 0#8
      return s.success
  else do
    storeT s.pos 0#8
    return s.success

/-- Src/base64.c:21-106 `Base64_encode`. -/
def encodeT (data : Ptr) (data_length : SizeT) (result : Ptr) (max_result_length : SizeT) : T Int := do
  let len := 4#64 * ((data_length + 2#64) / 3#64)
  let c ← T.branch (decide (len < data_length))
  if c then return 1
  else do
    let s ← encLoopT data_length max_result_length (data_length.toNat + 1)
      { inp := data, pos := result, in_position := 0#64, current_length := 0#64, success := 0 }
    encTailT data_length max_result_length s

end IMU.Base64

namespace IMU.Vernam
open Utils

/-- Src/utils.c:263-271 `Utils_isUpperChar`: the second comparison is made only if the first one holds. -/
def isUpperCharT (input : Byte) : T Bool := do
  let a ← T.branch (decide (65 ≤ input.toNat))
  if a then T.branch (decide (input.toNat ≤ 90)) else return false

/-- Src/utils.c:273-281 `Utils_isLowerChar`. -/
def isLowerCharT (input : Byte) : T Bool := do
  let a ← T.branch (decide (97 ≤ input.toNat))
  if a then T.branch (decide (input.toNat ≤ 122)) else return false

/-- Src/utils.c:283-289 `Utils_isAlpha`. -/
def isAlphaT (input : Byte) : T Bool := do
  let is_upper ← isUpperCharT input
  let is_lower ← isLowerCharT input
  let u ← T.branch is_upper
  return u || is_lower

/-- Src/crypto/vernam_cipher.c:50-65. -/
def encryptRoundT (msg key : Ptr) (i : Nat) : T Unit := do
  let c ← loadT (msg.addN i)
  let alpha ← isAlphaT c
  let alpha ← T.branch alpha
  if alpha then do
    let k ← loadT (key.addN i)
    let l ← isLowerCharT k
    let l ← T.branch l
    let u ← isUpperCharT c
    let u ← T.branch u
    let ascii_val : Int := if u then 65 else 97
    let temp := (c.toInt - ascii_val + k.toInt - (if l then 97 else 65)).tmod 26
    storeT (msg.addN i) (BitVec.ofInt 8 (temp + ascii_val))
  else return ()

/-- Src/crypto/vernam_cipher.c:77-92. -/
def decryptRoundT (charSigned : Bool) (msg key : Ptr) (i : Nat) : T Unit := do
  let c ← loadT (msg.addN i)
  let alpha ← isAlphaT c
  let alpha ← T.branch alpha
  if alpha then do
    let k ← loadT (key.addN i)
    let l ← isLowerCharT k
    let l ← T.branch l
    let u ← isUpperCharT c
    let u ← T.branch u
    let ascii_val : Int := if u then 65 else 97
    let cipher := (charVal charSigned c - ascii_val) - (charVal charSigned k - (if l then 97 else 65))
    let neg ← T.branch (decide (cipher < 0))
    storeT (msg.addN i) (BitVec.ofInt 8 (if neg then cipher + 26 + ascii_val else cipher + ascii_val))
  else return ()

/-- Src/crypto/vernam_cipher.c:45-70 `VernamCipher_encrypt`. -/
def encryptT (msg key : Ptr) (key_length : U32) : T Bool := do
  let msg_length ← strlenT msg
  let c ← T.branch (decide (BitVec.ofNat 32 msg_length = key_length))
  if c then do
    forNT key_length.toInt.toNat 0 (fun i _ => encryptRoundT msg key i) ()
    return true
  else return false

/-- Src/crypto/vernam_cipher.c:72-97 `VernamCipher_decrypt`. -/
def decryptT (charSigned : Bool) (msg key : Ptr) (key_length : U32) : T Bool := do
  let msg_length ← strlenT msg
  let c ← T.branch (decide (BitVec.ofNat 32 msg_length = key_length))
  if c then do
    forNT key_length.toInt.toNat 0 (fun i _ => decryptRoundT charSigned msg key i) ()
    return true
  else return false

end IMU.Vernam
