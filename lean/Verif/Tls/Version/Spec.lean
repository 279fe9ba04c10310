import Verif.Tls.Version.Model

/-!
# Specification of version negotiation

A configuration is described by the transport and the set of enabled protocol versions.
-/

namespace Verif.Tls.Version.Spec

/-- A set of versions of one transport: (D)TLS 1.2, (D)TLS 1.3, (D)TLCP 1.1. -/
structure VSet where
  v12 : Bool
  v13 : Bool
  tlcp : Bool
  deriving DecidableEq, Repr

/-- Wire value of version 1.2 on a transport (`dg`: datagram). -/
def w12 (dg : Bool) : Nat := if dg then 0xfefd else 0x0303
/-- Wire value of version 1.3. -/
def w13 (dg : Bool) : Nat := if dg then 0xfefc else 0x0304
/-- Wire value of TLCP 1.1, the same on both transports. -/
def wT : Nat := 0x0101

/-- The wire value names an enabled version. -/
def Enabled (dg : Bool) (e : VSet) (v : Nat) : Prop :=
  (v = w12 dg ∧ e.v12 = true) ∨ (v = w13 dg ∧ e.v13 = true) ∨ (v = wT ∧ e.tlcp = true)

instance (dg e v) : Decidable (Enabled dg e v) := by unfold Enabled; infer_instance

/-- Newer versions rank higher; TLCP below TLS. -/
def rank (v : Nat) : Nat :=
  if v = 0x0304 ∨ v = 0xfefc then 3 else if v = 0x0303 ∨ v = 0xfefd then 2 else if v = 0x0101 then 1 else 0

/-- What a ClientHello offers by its version field `l` alone: version 1.2 if `l` is 1.2 or newer
(newer datagram versions have smaller wire values), never 1.3, and TLCP instead if `l` is a TLCP
version: exactly 0x0101, or, `wide`, anything below SSL 3.0. -/
def LegacyOffer (dg wide : Bool) (l v : Nat) : Prop :=
  let tlcp : Prop := if wide then 0x0101 ≤ l ∧ l < 0x0300 else l = 0x0101
  (v = w12 dg ∧ ¬ tlcp ∧ (if dg then l ≤ 0xfefd else 0x0303 ≤ l)) ∨ (v = wT ∧ tlcp)

/-- What a ClientHello offers to a server: its supported_versions list (with the version field
frozen at 1.2), if it has one and the server knows 1.3. -/
def Offered (dg : Bool) (e : VSet) (ch : ClientHello) (v : Nat) : Prop :=
  if e.v13 = true ∧ ch.sv ≠ [] then ch.legacy = w12 dg ∧ v ∈ ch.sv
  else LegacyOffer dg (!e.v13) ch.legacy v

instance (dg wide l v) : Decidable (LegacyOffer dg wide l v) := by
  unfold LegacyOffer; cases wide <;> infer_instance
instance (dg e ch v) : Decidable (Offered dg e ch v) := by unfold Offered; infer_instance

/-- `v` is the highest version both enabled by the server and offered by the client. -/
def Best (dg : Bool) (e : VSet) (ch : ClientHello) (v : Nat) : Prop :=
  Enabled dg e v ∧ Offered dg e ch v ∧
  ∀ v', Enabled dg e v' → Offered dg e ch v' → rank v' ≤ rank v

/-- The versions a client offers: those enabled, but TLCP only if it is the only one. -/
def Usable (dg : Bool) (e : VSet) (v : Nat) : Prop :=
  Enabled dg e v ∧ (v = wT → e = ⟨false, false, true⟩)

instance (dg e v) : Decidable (Usable dg e v) := by unfold Usable; infer_instance

/-- The bit mask of a version set (`hitls_type.h:140-146`). -/
def VSet.mask (dg : Bool) (s : VSet) : BitVec 32 :=
  (if s.v12 then (if dg then 0x40000000#32 else 0x10#32) else 0#32) |||
  (if s.v13 then (if dg then 0x20000000#32 else 0x20#32) else 0#32) |||
  (if s.tlcp then (if dg then 0x100#32 else 0x80#32) else 0#32)

/-- Lowest enabled version, not counting TLCP if there is another; 0 for the empty set. -/
def lowest (dg : Bool) (e : VSet) : Nat :=
  if e.v12 then w12 dg else if e.v13 then w13 dg else if e.tlcp then wT else 0
/-- Highest enabled version. -/
def highest (dg : Bool) (e : VSet) : Nat :=
  if e.v13 then w13 dg else if e.v12 then w12 dg else if e.tlcp then wT else 0

/-- The versions of `o` between `lo` and `hi` in age; datagram wire values fall with age.  TLCP only
when asked for by itself. -/
def between (dg : Bool) (o : VSet) (lo hi : Nat) : VSet :=
  let within (v : Nat) : Bool := if dg then decide (hi ≤ v ∧ v ≤ lo) else decide (lo ≤ v ∧ v ≤ hi)
  ⟨o.v12 && within (w12 dg), o.v13 && within (w13 dg), o.tlcp && decide (lo = wT ∧ hi = wT)⟩

/-- The versions of `e` whose bits are not in the mask `m`. -/
def without (dg : Bool) (e : VSet) (m : BitVec 32) : VSet :=
  ⟨e.v12 && decide (VSet.mask dg ⟨true, false, false⟩ &&& m = 0#32),
   e.v13 && decide (VSet.mask dg ⟨false, true, false⟩ &&& m = 0#32),
   e.tlcp && decide (VSet.mask dg ⟨false, false, true⟩ &&& m = 0#32)⟩

/-- The configuration `c` is one for transport `dg`, created for the versions `o`, of which `e` are
enabled. -/
structure Describes (c : Cfg) (dg : Bool) (o e : VSet) : Prop where
  origin : c.origin = o.mask dg
  version : c.version = e.mask dg
  nonempty : o ≠ ⟨false, false, false⟩
  sub : (e.v12 → o.v12) ∧ (e.v13 → o.v13) ∧ (e.tlcp → o.tlcp)
  minV : c.minV = lowest dg e
  maxV : c.maxV = highest dg e

/-- Changes an application makes to a configuration. -/
inductive Op
  | setVersion (lo hi : Nat)
  | forbid (mask : BitVec 32)

/-- Applying a change (a failing call changes nothing). -/
def apply (c : Cfg) : Op → Cfg
  | .setVersion lo hi => (setVersion c lo hi).getD c
  | .forbid m => setVersionForbid c m

/-- The random field of a hello ends with the downgrade marker of RFC 8446, 4.1.3. -/
def Marked (random : List (BitVec 8)) : Prop :=
  (random.drop 24).take 8 = [0x44#8, 0x4f#8, 0x57#8, 0x4e#8, 0x47#8, 0x52#8, 0x44#8, 0x01#8]

instance (r) : Decidable (Marked r) := by unfold Marked; infer_instance

end Verif.Tls.Version.Spec
