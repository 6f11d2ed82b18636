import Verif.Proofs.CrcBase
import Verif.Spec.CrcCalls

/-! # The tables and constants of the 45 functions -/

namespace IMU.Crc
open Spec.Crc
open Base64 (Reads)

/-- What there is to check about the constants of a function. -/
structure Sound {w : Nat} (v : Variant w) (e : Entry w) : Prop where
  table : v.crc_table = tableOf e.params.poly
  init : v.initial = e.params.init
  refin : v.reflected_input = e.params.refin
  refout : v.reflected_output = e.params.refout
  xorout : (if v.final_xor then v.final_xor_value else 0#w) = e.params.xorout
  gate1 : v.reflected_output = true → v.gate_reflect = true
  gate2 : v.final_xor = true → v.gate_xor = true
  same : e.params.refin = e.params.refout
  odd : e.params.poly.getLsbD 0 = true

instance {w : Nat} (v : Variant w) (e : Entry w) : Decidable (Sound v e) :=
  decidable_of_iff (v.crc_table = tableOf e.params.poly ∧ v.initial = e.params.init ∧
    v.reflected_input = e.params.refin ∧ v.reflected_output = e.params.refout ∧
    (if v.final_xor then v.final_xor_value else 0#w) = e.params.xorout ∧
    (v.reflected_output = true → v.gate_reflect = true) ∧ (v.final_xor = true → v.gate_xor = true) ∧
    e.params.refin = e.params.refout ∧ e.params.poly.getLsbD 0 = true)
    ⟨fun ⟨a, b, c, d, e, f, g, h, i⟩ => ⟨a, b, c, d, e, f, g, h, i⟩,
     fun ⟨a, b, c, d, e, f, g, h, i⟩ => ⟨a, b, c, d, e, f, g, h, i⟩⟩

theorem sound8 : ∀ v ∈ variants8, ∀ e ∈ catalogue8, v.name = e.name → Sound v e := by decide +kernel

theorem sound16 : ∀ v ∈ variants16, ∀ e ∈ catalogue16, v.name = e.name → Sound v e := by decide +kernel

theorem sound32 : ∀ v ∈ variants32, ∀ e ∈ catalogue32, v.name = e.name → Sound v e := by decide +kernel

end IMU.Crc
