import Verif.C.Leak
import Verif.Model.Utils

/-!
# The serialisers, observed

The same code as in `Verif/Model/Utils.lean`, line by line, showing the memory accesses and decisions of the C text.
-/

namespace IMU.Utils

/-- Src/utils.c:124-127, observed. -/
def serialize8T (buf : Ptr) (value : Byte) : T Unit :=
  storeT (buf.addN 0) (value &&& 0xFF#8)

/-- Src/utils.c:129-133, observed. -/
def deserialize8T (buf : Ptr) : T Byte := loadT (buf.addN 0)

/-- Src/utils.c:135-139, observed. -/
def serialize16BET (buf : Ptr) (value : U16) : T Unit := do
  storeT (buf.addN 0) ((value >>> 8).setWidth 8 &&& 0xFF#8)
  storeT (buf.addN 1) (value.setWidth 8 &&& 0xFF#8)

/-- Src/utils.c:141-146, observed. -/
def serialize24BET (buf : Ptr) (value : U32) : T Unit := do
  storeT (buf.addN 0) ((value >>> 16).setWidth 8 &&& 0xFF#8)
  storeT (buf.addN 1) ((value >>> 8).setWidth 8 &&& 0xFF#8)
  storeT (buf.addN 2) (value.setWidth 8 &&& 0xFF#8)

/-- Src/utils.c:148-154, observed. -/
def serialize32BET (buf : Ptr) (value : U32) : T Unit := do
  storeT (buf.addN 0) ((value >>> 24).setWidth 8 &&& 0xFF#8)
  storeT (buf.addN 1) ((value >>> 16).setWidth 8 &&& 0xFF#8)
  storeT (buf.addN 2) ((value >>> 8).setWidth 8 &&& 0xFF#8)
  storeT (buf.addN 3) (value.setWidth 8 &&& 0xFF#8)

/-- Src/utils.c:156-161, observed. -/
def serializeBlobBET (buf src : Ptr) (size : U32) : T Unit :=
  forNT size.toNat 0 (fun i _ => do
    let v ← loadT (src.addN i)
    storeT (buf.addN i) v) ()

/-- Src/utils.c:163-169, observed.  The shift is done in `int` (at most 0xFF00) and converted to
`uint16_t`. -/
def deserialize16BET (buf : Ptr) : T U16 := do
  let b0 ← loadT (buf.addN 0)
  let b1 ← loadT (buf.addN 1)
  return (b0.setWidth 16 <<< 8) ||| b1.setWidth 16

/-- Src/utils.c:171-178, observed. -/
def deserialize24BET (buf : Ptr) : T U32 := do
  let b0 ← loadT (buf.addN 0)
  let b1 ← loadT (buf.addN 1)
  let b2 ← loadT (buf.addN 2)
  return ((b0.setWidth 32 <<< 16) ||| (b1.setWidth 32 <<< 8)) ||| b2.setWidth 32

/-- Src/utils.c:180-188, observed. -/
def deserialize32BET (buf : Ptr) : T U32 := do
  let b0 ← loadT (buf.addN 0)
  let b1 ← loadT (buf.addN 1)
  let b2 ← loadT (buf.addN 2)
  let b3 ← loadT (buf.addN 3)
  return (((b0.setWidth 32 <<< 24) ||| (b1.setWidth 32 <<< 16)) ||| (b2.setWidth 32 <<< 8)) |||
    b3.setWidth 32

/-- Src/utils.c:190-195, observed. -/
def deserializeBlobBET (buf dst : Ptr) (size : U32) : T Unit :=
  forNT size.toNat 0 (fun i _ => do
    let v ← loadT (buf.addN i)
    storeT (dst.addN i) v) ()

/-- Src/utils.c:197-201, observed. -/
def serialize16LET (buf : Ptr) (value : U16) : T Unit := do
  storeT (buf.addN 1) ((value >>> 8).setWidth 8 &&& 0xFF#8)
  storeT (buf.addN 0) (value.setWidth 8 &&& 0xFF#8)

/-- Src/utils.c:203-208, observed. -/
def serialize24LET (buf : Ptr) (value : U32) : T Unit := do
  storeT (buf.addN 2) ((value >>> 16).setWidth 8 &&& 0xFF#8)
  storeT (buf.addN 1) ((value >>> 8).setWidth 8 &&& 0xFF#8)
  storeT (buf.addN 0) (value.setWidth 8 &&& 0xFF#8)

/-- Src/utils.c:210-216, observed. -/
def serialize32LET (buf : Ptr) (value : U32) : T Unit := do
  storeT (buf.addN 3) ((value >>> 24).setWidth 8 &&& 0xFF#8)
  storeT (buf.addN 2) ((value >>> 16).setWidth 8 &&& 0xFF#8)
  storeT (buf.addN 1) ((value >>> 8).setWidth 8 &&& 0xFF#8)
  storeT (buf.addN 0) (value.setWidth 8 &&& 0xFF#8)

/-- Src/utils.c:218-225, observed.  `(int32_t)size - 1` may overflow; the loop runs with
`i = i0, ..., 0` and `j = i0 - i`, i.e. `i0 + 1` times if `i0 >= 0` and never otherwise. -/
def serializeBlobLET (buf src : Ptr) (size : U32) : T Unit := do
  let i0 ← T.quiet (i32 (size.toInt - 1))
  forNT (i0 + 1).toNat 0 (fun j _ => do
    let v ← loadT (src.addZ (i0 - j))
    storeT (buf.addN j) v) ()

/-- Src/utils.c:227-233, observed. -/
def deserialize16LET (buf : Ptr) : T U16 := do
  let b1 ← loadT (buf.addN 1)
  let b0 ← loadT (buf.addN 0)
  return (b1.setWidth 16 <<< 8) ||| b0.setWidth 16

/-- Src/utils.c:235-242, observed. -/
def deserialize24LET (buf : Ptr) : T U32 := do
  let b2 ← loadT (buf.addN 2)
  let b1 ← loadT (buf.addN 1)
  let b0 ← loadT (buf.addN 0)
  return ((b2.setWidth 32 <<< 16) ||| (b1.setWidth 32 <<< 8)) ||| b0.setWidth 32

/-- Src/utils.c:244-252, observed. -/
def deserialize32LET (buf : Ptr) : T U32 := do
  let b3 ← loadT (buf.addN 3)
  let b2 ← loadT (buf.addN 2)
  let b1 ← loadT (buf.addN 1)
  let b0 ← loadT (buf.addN 0)
  return (((b3.setWidth 32 <<< 24) ||| (b2.setWidth 32 <<< 16)) ||| (b1.setWidth 32 <<< 8)) |||
    b0.setWidth 32

/-- Src/utils.c:254-261, observed; as `serializeBlobLET`. -/
def deserializeBlobLET (buf dst : Ptr) (size : U32) : T Unit := do
  let i0 ← T.quiet (i32 (size.toInt - 1))
  forNT (i0 + 1).toNat 0 (fun j _ => do
    let v ← loadT (buf.addZ (i0 - j))
    storeT (dst.addN j) v) ()

end IMU.Utils
