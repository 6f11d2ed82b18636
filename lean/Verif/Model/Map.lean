import Verif.C.Mem

/-!
# Model of Src/map.c

`int32_t` values are integers; every arithmetic result passes `i32`, which is undefined behaviour when
the exact value is not representable.
-/

namespace IMU.Map

/-- Inc/map.h:40-47 `Map_t`. -/
structure MapT where
  keys : Ptr
  values : Ptr
  key_size : Int
  value_size : Int
  max_map_size : Int
  current_size : Int
  deriving DecidableEq

/-- Conversion of an `int32_t` to `size_t` (reduction modulo 2^64), as in Src/map.c:46. -/
def toSizeT (x : Int) : Nat := (x % 2 ^ 64).toNat

/-- Src/map.c:44-50: the loop of `GetIndex`, `n` iterations left, at index `i`. -/
def getIndexLoop (map : MapT) (key : Ptr) : Nat → Int → C Int
  | 0, _ => pure (-1)
  | n + 1, i => do
    let off ← i32 (i * map.key_size)
    let eq ← memeq (map.keys.addZ off) key (toSizeT map.key_size)
    if eq then pure i else getIndexLoop map key n (i + 1)

/-- Src/map.c:41-52 `GetIndex`; -1 is `INDEX_NOT_FOUND`. -/
def getIndex (map : MapT) (key : Ptr) (size : Int) : C Int := getIndexLoop map key size.toNat 0

/-- Src/map.c:54-68 `Map_init`.  `map` is the structure before the call, `none` a null pointer. -/
def init (map : Option MapT) (keys values : Option Ptr) (key_size value_size max_map_size : Int) :
    C (Bool × Option MapT) :=
  match keys, values with
  | some k, some v =>
    if key_size ≠ 0 ∧ value_size ≠ 0 ∧ max_map_size ≠ 0 then
      match map with
      | none => C.ub .nullDeref
      | some _ => pure (true, some ⟨k, v, key_size, value_size, max_map_size, 0⟩)
    else pure (false, map)
  | _, _ => pure (false, map)

/-- Src/map.c:70-100 `Map_insert`. -/
def insert (map : Option MapT) (key value : Ptr) : C (Bool × Option MapT) :=
  match map with
  | none => pure (false, none)
  | some map => do
    let index ← getIndex map key map.current_size
    if index = -1 then
      if map.current_size ≠ map.max_map_size then do
        let ko ← i32 (map.current_size * map.key_size)
        memcpy (map.keys.addZ ko) key (toSizeT map.key_size)
        let vo ← i32 (map.current_size * map.value_size)
        memcpy (map.values.addZ vo) value (toSizeT map.value_size)
        let cs ← i32 (map.current_size + 1)
        return (true, some { map with current_size := cs })
      else return (false, some map)
    else do
      let vo ← i32 (index * map.value_size)
      memcpy (map.values.addZ vo) value (toSizeT map.value_size)
      return (true, some map)

/-- Src/map.c:102-117 `Map_getValue`. -/
def getValue (map : Option MapT) (key value : Ptr) : C Bool :=
  match map with
  | none => pure false
  | some map => do
    let index ← getIndex map key map.current_size
    if index ≠ -1 then do
      let vo ← i32 (index * map.value_size)
      memcpy value (map.values.addZ vo) (toSizeT map.value_size)
      return true
    else return false

end IMU.Map
