import Verif.Common.Bits
/-! Model of /repo/crypto/entropy/src/es_health_test.c and of its use in es_noise_source.c. Counters are `uint32_t`. -/
namespace Verif.Crypto.Health
open Verif.Common

/-- `ES_RctState`, es_health_test.h:27-31. -/
structure Rct where
  cutoff : Nat
  count : Nat
  lastData : Byte

/-- `ES_AptState`, es_health_test.h:33-40. -/
structure Apt where
  cutoff : Nat
  windowSize : Nat
  baseSet : Bool
  count : Nat
  observed : Nat
  base : Byte

/-- `ES_HealthTestRct`, es_health_test.c:24-40. `true`: passed. -/
def rct (s : Rct) (data : Byte) : Rct × Bool :=
  if data = s.lastData then
    let s := { s with count := (s.count + 1) % 2 ^ 32 }
    if s.count ≥ s.cutoff then (s, false) else (s, true)
  else ({ s with lastData := data, count := 1 }, true)

/-- `ES_HealthTestApt`, es_health_test.c:42-68. `true`: passed. -/
def apt (s : Apt) (data : Byte) : Apt × Bool :=
  if s.baseSet = false then ({ s with baseSet := true, base := data, count := 1, observed := 1 }, true)
  else
    let (s, ret) :=
      if s.base = data then
        let s := { s with count := (s.count + 1) % 2 ^ 32 }
        (s, decide (¬ s.count ≥ s.cutoff))
      else (s, true)
    let s := { s with observed := (s.observed + 1) % 2 ^ 32 }
    (if s.observed ≥ s.windowSize then { s with baseSet := false } else s, ret)

/-- `ES_HealthTestReset`, es_health_test.c:70-78. -/
def resetRct (s : Rct) : Rct := { s with count := 0, lastData := 0 }
def resetApt (s : Apt) : Apt := { s with baseSet := false, count := 0, observed := 0, base := 0 }

/-- The test loop of `NsRead`, es_noise_source.c:407-417, on the bytes one read returns. -/
def nsTest : List Byte → Rct → Apt → Rct × Apt × Bool
  | [], r, a => (r, a, true)
  | b :: bs, r, a =>
    match rct r b with
    | (r, false) => (r, a, false)
    | (r, true) =>
      match apt a b with
      | (a, false) => (r, a, false)
      | (a, true) => nsTest bs r a

/-- Successive calls of `NsRead`; the list of verdicts. -/
def nsReads : List (List Byte) → Rct → Apt → List Bool
  | [], _, _ => []
  | buf :: bufs, r, a => (nsTest buf r a).2.2 :: nsReads bufs (nsTest buf r a).1 (nsTest buf r a).2.1

/-- `ES_DeltaTimerCheck` inside the loop, es_health_test.c:120-134; `none` is the early return on a zero delta. -/
def timerLoop (target : Nat) : List Nat → Bool → Nat → Nat → Bool → Option (Nat × Bool)
  | [], _, _, variation, varied => some (variation, varied)
  | delta :: ds, first, previous, variation, varied =>
    if delta = 0 then none
    else
      let varied := if first = false ∧ delta % 256 ≠ previous % 256 then true else varied
      let variation :=
        if first = false ∧ variation < target then
          let difference := if delta ≥ previous then delta - previous else previous - delta
          let remaining := target - variation
          variation + if difference < remaining then difference else remaining
        else variation
      timerLoop target ds false delta variation varied

/-- `ES_DeltaTimerCheck`, es_health_test.c:105-142, where `ds` are the `count` samples. `true`: success. -/
def timerCheck (ds : List Nat) (osr : Nat) : Bool :=
  if osr = 0 then false
  else if ds.length = 0 then false
  else
    let target := ds.length / osr + if ds.length % osr ≠ 0 then 1 else 0
    match timerLoop target ds true 0 0 false with
    | none => false
    | some (variation, varied) => !(decide (variation < target) || (decide (ds.length > 1) && !varied))

/-- `ES_DeltaOsrCutoffs`, es_health_test.c:80-103: `rctCutoff`, `aptCutoff`, `rctPermCutoff`, `aptPermCutoff`. -/
def osrCutoffs (osr : Nat) : Option (Nat × Nat × Nat × Nat) :=
  if osr = 0 ∨ osr > 15 then none
  else do
    let a ← [311, 411, 449, 468, 480, 488, 493, 497, 500, 502, 504, 505, 507, 508, 508][osr - 1]?
    let p ← [355, 447, 479, 494, 502, 507, 510, 512, 512, 512, 512, 512, 512, 512, 512][osr - 1]?
    some (1 + 20 * osr, a, 1 + 60 * osr, p)

end Verif.Crypto.Health
