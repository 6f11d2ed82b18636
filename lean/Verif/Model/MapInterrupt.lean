import Verif.Model.Map

/-!
# Src/map.c, interrupted once

`Map_insert` and `Map_getValue` of `Verif/Model/Map.lean` with one point at which an interrupt handler runs a whole call
of its own on the same structure.  Assumptions: the handler runs to its end before the interrupted call goes on;
`map->current_size` is read anew wherever the code names it (the compiler keeps no copy in a register), except that
`GetIndex` has the number of entries as an argument; `memcpy` may copy its bytes in any order and is interrupted when
any set of them is copied.  The other members of the structure never change.  Interrupts inside one comparison
(`memcmp`) are left out.
-/

namespace IMU.Map

/-- What the interrupt handler does with the structure: its own call of Src/map.c:70-117, and the status it gets. -/
abbrev Handler := MapT → C (Bool × MapT)

/-- A handler that calls Src/map.c:70-100 `Map_insert`. -/
def writer (key value : Ptr) : Handler := fun map => do
  let (r, map') ← insert (some map) key value
  return (r, map'.getD map)

/-- A handler that calls Src/map.c:102-117 `Map_getValue`. -/
def reader (key value : Ptr) : Handler := fun map => do
  let r ← getValue (some map) key value
  return (r, map)

/-- Where in Src/map.c:70-117 the handler runs. -/
inductive Point where
  /-- in the loop of Src/map.c:44-50, after `k` comparisons, or after the last one if there are fewer -/
  | search (k : Nat)
  /-- in Src/map.c:76, `current_size` has been found to differ from `max_map_size` -/
  | room
  /-- in the `memcpy` of Src/map.c:81 when the bytes `S` are copied -/
  | key (S : Nat → Bool)
  /-- in the `memcpy` of Src/map.c:86, 95 or 112 when the bytes `S` are copied -/
  | value (S : Nat → Bool)
  /-- in Src/map.c:87, `current_size` is read but not yet written -/
  | load

/-- The bytes of the set `S` of a `memcpy(dst, src, n)` as in Src/map.c:81. -/
def memcpyPart (S : Nat → Bool) (dst src : Ptr) (n : Nat) : C Unit :=
  if overlaps dst src n then C.ub .overlap
  else do
    let s ← loadN src n
    let d ← loadN dst n
    storeN dst ((List.range n).map fun i => if S i then s.getD i 0 else d.getD i 0)

/-- A `memcpy` as in Src/map.c:81, interrupted when the bytes `S` are copied if there is such an `S`; `s` is the status
of the handler's call so far. -/
def copyInt (now : Option (Nat → Bool)) (h : Handler) (s : Bool) (map : MapT) (dst src : Ptr) (n : Nat) :
    C (Bool × MapT) :=
  match now with
  | none => do
    memcpy dst src n
    return (s, map)
  | some S => do
    memcpyPart S dst src n
    let r ← h map
    memcpyPart (fun i => !S i) dst src n
    return r

/-- Src/map.c:41-52 `GetIndex`, interrupted after `k` comparisons if there is such a `k`. -/
def getIndexInt (now : Option Nat) (h : Handler) (map : MapT) (key : Ptr) : C (Int × Bool × MapT) :=
  match now with
  | none => do
    let i ← getIndex map key map.current_size
    return (i, false, map)
  | some k => do
    let size := map.current_size.toNat
    let i ← getIndexLoop map key (min k size) 0
    let (s, map') ← h map
    if i ≠ -1 then return (i, s, map')
    else do
      let i ← getIndexLoop map' key (size - k) (min k size : Nat)
      return (i, s, map')

/-- The point as an argument of `getIndexInt` (Src/map.c:41-52). -/
def Point.inSearch : Point → Option Nat
  | .search k => some k
  | _ => none

/-- The point as an argument of `copyInt` for the key (Src/map.c:81). -/
def Point.inKey : Point → Option (Nat → Bool)
  | .key S => some S
  | _ => none

/-- The point as an argument of `copyInt` for the value (Src/map.c:86, 95, 112). -/
def Point.inValue : Point → Option (Nat → Bool)
  | .value S => some S
  | _ => none

/-- Src/map.c:70-100 `Map_insert`, interrupted once; returns the handler's status (`false` if its point was not
reached), the own status and the structure. -/
def insertInt (p : Point) (h : Handler) (map : MapT) (key value : Ptr) : C (Bool × Bool × MapT) := do
  let (index, s, map) ← getIndexInt p.inSearch h map key
  if index = -1 then
    if map.current_size ≠ map.max_map_size then do
      let (s, map) ← match p with
        | .room => h map
        | _ => pure (s, map)
      let ko ← i32 (map.current_size * map.key_size)
      let (s, map) ← copyInt p.inKey h s map (map.keys.addZ ko) key (toSizeT map.key_size)
      let vo ← i32 (map.current_size * map.value_size)
      let (s, map) ← copyInt p.inValue h s map (map.values.addZ vo) value (toSizeT map.value_size)
      let old := map.current_size
      let (s, map) ← match p with
        | .load => h map
        | _ => pure (s, map)
      let cs ← i32 (old + 1)
      return (s, true, { map with current_size := cs })
    else return (s, false, map)
  else do
    let vo ← i32 (index * map.value_size)
    let (s, map) ← copyInt p.inValue h s map (map.values.addZ vo) value (toSizeT map.value_size)
    return (s, true, map)

/-- Src/map.c:102-117 `Map_getValue`, interrupted once; returns the handler's status, the own one and the structure. -/
def getValueInt (p : Point) (h : Handler) (map : MapT) (key value : Ptr) : C (Bool × Bool × MapT) := do
  let (index, s, map) ← getIndexInt p.inSearch h map key
  if index ≠ -1 then do
    let vo ← i32 (index * map.value_size)
    let (s, map) ← copyInt p.inValue h s map value (map.values.addZ vo) (toSizeT map.value_size)
    return (s, true, map)
  else return (s, false, map)

end IMU.Map
