import Verif.C.Leak
import Verif.Model.Base64

/-!
# `Base64_decode`, observed
-/

namespace IMU.Base64

/-- `base64_index[*p]`, as in Src/base64.c:147, observed. -/
def indexT (p : Ptr) : T U32 := do
  let c ← loadT p
  constAtT base64_index c.toNat

/-- Src/base64.c:147-154: `decGroup`, observed. -/
def decGroupT (inp out : Ptr) (i j : Nat) : T Nat := do
  let a ← indexT (inp.addN i)
  let b ← indexT (inp.addN (i + 1))
  let c ← indexT (inp.addN (i + 2))
  let d ← indexT (inp.addN (i + 3))
  let n := (a <<< 18) ||| (b <<< 12) ||| (c <<< 6) ||| d
  storeT (out.addN j) ((n >>> 16).setWidth 8)
  storeT (out.addN (j + 1)) (((n >>> 8) &&& 0xFF#32).setWidth 8)
  storeT (out.addN (j + 2)) ((n &&& 0xFF#32).setWidth 8)
  return j + 3

/-- Src/base64.c:157-167: `decLast`, observed; the second half of the condition in line 160 is decided only if the first
one holds. -/
def decLastT (inp : Ptr) (in_len len out_len : SizeT) (out : Ptr) (max_out_len : SizeT) : T Int := do
  let a ← indexT (inp.addN len.toNat)
  let b ← indexT (inp.addN (len + 1#64).toNat)
  let n := (a <<< 18) ||| (b <<< 12)
  storeT (out.addN (out_len - 1#64).toNat) ((n >>> 16).setWidth 8)
  let more ← T.branch (decide (len + 2#64 < in_len))
  if more then
    let c ← loadT (inp.addN (len + 2#64).toNat)
    let third ← T.branch (decide (c ≠ 61#8))
    if third then
      let short ← T.branch (decide (max_out_len < out_len + 1#64))
      if short then return 1
      else
        let v ← indexT (inp.addN (len + 2#64).toNat)
        let n := n ||| (v <<< 6)
        storeT (out.addN out_len.toNat) (((n >>> 8) &&& 0xFF#32).setWidth 8)
        return 0
    else return 0
  else return 0

/-- Src/base64.c:128: `padBool`, observed. -/
def padBoolT (inp : Ptr) (in_len : SizeT) : T Bool := do
  let b ← T.branch (decide (0#64 < in_len))
  if b then
    let r ← T.branch (decide (in_len % 4#64 ≠ 0#64))
    if r then return true
    else
      let c ← loadT (inp.addN (in_len - 1#64).toNat)
      T.branch (c == 61#8)
  else return false

/-- Src/base64.c:108-172 `Base64_decode`, observed: the decisions of lines 130, 136, 140, 144 and 156.  The initialisation of
the table has a fixed pattern of accesses and is not shown. -/
def decodeT (inp : Ptr) (in_len : SizeT) (out : Ptr) (max_out_len : SizeT) : T Int := do
  let pad_bool ← padBoolT inp in_len
  let pad_bool ← T.branch pad_bool
  let pad_uint := if pad_bool then 1#64 else 0#64
  let len := (((in_len + 3#64) / 4#64) - pad_uint) * 4#64
  let out_len := (len / 4#64) * 3#64 + pad_uint
  let small ← T.branch (decide (max_out_len < out_len))
  let none ← T.branch (decide (len = 0#64))
  let go ← T.branch (!(small || none))
  if go then
    let _ ← forNT ((len.toNat + 3) / 4) 0 (fun r j => decGroupT inp out (4 * r) j) 0
    let pad_bool ← T.branch pad_bool
    if pad_bool then decLastT inp in_len len out_len out max_out_len
    else return 0
  else return 1

end IMU.Base64
