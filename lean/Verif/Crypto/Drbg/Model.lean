import Verif.Common.Bits
/-! Model of the state machine of /repo/crypto/drbg/src/drbg.c. The mechanism behind `ctx->meth` (hash, HMAC or CTR) is
not modelled: every use of it is recorded in a trace, with the inputs it gets, and may fail. The entropy source, the
process id and the clock are inputs. -/
namespace Verif.Crypto.Drbg
open Verif.Common

/-- Constants of a context, drbg_local.h:51-87. `hasNonce` is `seedMeth.getNonce != NULL`. -/
structure Cfg where
  entMin : Nat
  entMax : Nat
  nonceMin : Nat
  nonceMax : Nat
  hasNonce : Bool
  maxPers : Nat
  maxAdin : Nat
  maxRequest : Nat

/-- `DRBG_State`, drbg_local.h:39-43. -/
inductive State
  | uninit | ready | error
deriving DecidableEq

/-- What happens, newest first in a trace. `proc` is the identity of the process, which is not its process id. -/
inductive Ev
  /-- a request for output begins -/
  | request
  /-- successful instantiation: process, time, whether a time limit is set, entropy, nonce, personalisation -/
  | inst (proc t : Nat) (timed : Bool) (ent nonce pers : List Byte)
  /-- successful reseeding -/
  | reseed (proc t : Nat) (timed : Bool) (ent adin : List Byte)
  /-- nonce, entropy or mechanism failed while seeding -/
  | seedFail
  | uninst
  /-- the mechanism is asked for `len` bytes -/
  | gen (proc : Nat) (pr : Bool) (interval intervalTime t len : Nat) (ok : Bool)
deriving DecidableEq

/-- The fields of `DrbgCtx` that change, with the running process (`pid`, `proc`) and the trace. -/
structure Ctx where
  st : State
  ctr : Nat
  interval : Nat
  lastTime : Nat
  intervalTime : Nat
  pr : Bool
  forkId : Nat
  pid : Nat
  proc : Nat
  tr : List Ev

/-- Replies of the environment during one `DRBG_Generate`/`DRBG_Reseed`/`DRBG_Instantiate`: the source for an
instantiation (`nonce`, `entI`) and for a reseeding (`entR`), whether the mechanism succeeds, and clock readings.
A reply that `CRYPT_CHECK_DATA_INVALID` refuses counts as a failure. -/
structure Env where
  nonce : Option (List Byte)
  entI : Option (List Byte)
  entR : Option (List Byte)
  okI : Bool
  okR : Bool
  okG : Bool
  tI : Nat
  tChk : Nat
  tR : Nat

/-- `DRBG_NewHashCtx` and the like, drbg_hash.c:484-508. -/
def new (interval intervalTime pid : Nat) : Ctx := ⟨.uninit, 0, interval, 0, intervalTime, false, pid, pid, 0, []⟩

/-- `DRBG_GetEntropy`, drbg.c:61-100. -/
def getEntropy (cfg : Cfg) (addEntropy : Bool) (reply : Option (List Byte)) : Option (List Byte) :=
  let min := cfg.entMin + if addEntropy then cfg.nonceMin else 0
  let max := cfg.entMax + if addEntropy then cfg.nonceMax else 0
  match reply with
  | none => none
  | some e => if min ≤ e.length ∧ e.length ≤ max then some e else none

/-- `DRBG_GetNonce`, drbg.c:119-152: the nonce and `*addEntropy`. -/
def getNonce (cfg : Cfg) (reply : Option (List Byte)) : Option (List Byte × Bool) :=
  if cfg.hasNonce = false ∨ cfg.nonceMax = 0 then some ([], decide (cfg.nonceMin > 0))
  else match reply with
    | none => none
    | some n => if cfg.nonceMin ≤ n.length ∧ n.length ≤ cfg.nonceMax then some (n, false) else none

/-- `DRBG_Instantiate`, drbg.c:181-239. -/
def instantiate (cfg : Cfg) (e : Env) (c : Ctx) (pers : List Byte) : Ctx × Bool :=
  if pers.length > cfg.maxPers then (c, false)
  else if c.st ≠ .uninit then (c, false)
  else
    let failed := { c with st := .error, tr := .seedFail :: c.tr }
    match getNonce cfg e.nonce with
    | none => (failed, false)
    | some (nonce, addEntropy) =>
      match getEntropy cfg addEntropy e.entI with
      | none => (failed, false)
      | some ent =>
        if e.okI = false then (failed, false)
        else
          ({ c with
              st := .ready, ctr := 1,
              lastTime := if c.intervalTime ≠ 0 then e.tI else c.lastTime,
              tr := .inst c.proc e.tI (decide (c.intervalTime ≠ 0)) ent nonce pers :: c.tr }, true)

/-- `DRBG_Uninstantiate`, drbg.c:361-374. -/
def uninstantiate (c : Ctx) : Ctx := { c with st := .uninit, ctr := 0, tr := .uninst :: c.tr }

/-- `DRBG_Restart`, drbg.c:154-167. -/
def restart (cfg : Cfg) (e : Env) (c : Ctx) : Ctx × Bool :=
  let c := if c.st = .error then uninstantiate c else c
  if c.st = .uninit then instantiate cfg e c [] else (c, true)

/-- `DRBG_IsNeedReseed`, drbg.c:241-259. -/
def isNeedReseed (e : Env) (c : Ctx) (pr : Bool) : Bool :=
  if c.forkId ≠ c.pid then true
  else if pr then true
  else if c.ctr > c.interval then true
  else if c.intervalTime ≠ 0 then decide ((e.tChk + 2 ^ 64 - c.lastTime) % 2 ^ 64 > c.intervalTime)
  else false

/-- `DRBG_Reseed` behind its argument checks, drbg.c:281-313. -/
def reseedBody (cfg : Cfg) (e : Env) (c : Ctx) (adin : List Byte) : Ctx × Bool :=
  let (c, ok) := if c.st ≠ .ready then restart cfg e c else (c, true)
  if ok = false then (c, false)
  else
    let failed := { c with st := .error, tr := .seedFail :: c.tr }
    match getEntropy cfg false e.entR with
    | none => (failed, false)
    | some ent =>
      if e.okR = false then (failed, false)
      else
        ({ c with
            st := .ready, ctr := 1, forkId := c.pid,
            lastTime := if c.intervalTime ≠ 0 then e.tR else c.lastTime,
            tr := .reseed c.proc e.tR (decide (c.intervalTime ≠ 0)) ent adin :: c.tr }, true)

/-- `DRBG_Reseed`, drbg.c:261-314. -/
def reseed (cfg : Cfg) (e : Env) (c : Ctx) (adin : List Byte) : Ctx × Bool :=
  if adin.length > cfg.maxAdin then (c, false) else reseedBody cfg e c adin

/-- `DRBG_Generate`, drbg.c:316-359. -/
def generate (cfg : Cfg) (e : Env) (c : Ctx) (outLen : Nat) (adin : List Byte) (pr : Bool) : Ctx × Bool :=
  let c := { c with tr := .request :: c.tr }
  if outLen > cfg.maxRequest ∨ adin.length > cfg.maxAdin then (c, false)
  else
    let (c, ok) := if c.st ≠ .ready then restart cfg e c else (c, true)
    if ok = false then (c, false)
    else
      let (c, ok) := if isNeedReseed e c pr then reseed cfg e c adin else (c, true)
      if ok = false then (c, false)
      else
        let c := { c with tr := .gen c.proc pr c.interval c.intervalTime e.tChk outLen e.okG :: c.tr }
        if e.okG = false then (c, false) else ({ c with ctr := (c.ctr + 1) % 2 ^ 32 }, true)

/-- The loop of `DRBG_GenerateBytes`, drbg.c:624-631; `env i` is the environment of round `i`. -/
def genLoop (cfg : Cfg) (env : Nat → Env) (adin : List Byte) : Nat → Nat → Nat → Nat → Ctx → Ctx × Bool
  | 0, _, leftLen, _, c => (c, leftLen = 0)
  | fuel + 1, i, leftLen, block, c =>
    if leftLen = 0 then (c, true)
    else
      let block := if leftLen > block then block else leftLen
      let (c, ok) := generate cfg (env i) c block adin c.pr
      if ok = false then (c, false) else genLoop cfg env adin fuel (i + 1) (leftLen - block) block c

/-- `DRBG_GenerateBytes`, drbg.c:612-636. Every round takes at least one byte, so `outLen` rounds are enough. -/
def generateBytes (cfg : Cfg) (env : Nat → Env) (c : Ctx) (outLen : Nat) (adin : List Byte) : Ctx × Bool :=
  if cfg.maxRequest = 0 then (c, false) else genLoop cfg env adin outLen 0 outLen cfg.maxRequest c

/-- `DRBG_SetReseedInterval`, drbg.c:414-427. -/
def setInterval (c : Ctx) (v : Nat) : Ctx := if v ≥ 2 ^ 32 - 1 then c else { c with interval := v }

/-- Calls, and a fork: the copy of the context in a new process, whose process id is `pid`. -/
inductive Op
  | instantiate (pers : List Byte) (e : Env)
  | reseed (adin : List Byte) (e : Env)
  | generate (outLen : Nat) (adin : List Byte) (pr : Bool) (e : Env)
  | generateBytes (outLen : Nat) (adin : List Byte) (env : Nat → Env)
  | uninstantiate
  | setInterval (v : Nat)
  | setIntervalTime (v : Nat)
  | setPr (v : Bool)
  | fork (pid : Nat)

def step (cfg : Cfg) (c : Ctx) : Op → Ctx × Bool
  | .instantiate p e => instantiate cfg e c p
  | .reseed a e => reseed cfg e c a
  | .generate n a pr e => generate cfg e c n a pr
  | .generateBytes n a env => generateBytes cfg env c n a
  | .uninstantiate => (uninstantiate c, true)
  | .setInterval v => (setInterval c v, true)
  | .setIntervalTime v => ({ c with intervalTime := v }, true)
  | .setPr v => ({ c with pr := v }, true)
  | .fork pid => ({ c with pid := pid, proc := c.proc + 1 }, true)

def run (cfg : Cfg) (c : Ctx) : List Op → Ctx
  | [] => c
  | op :: ops => run cfg (step cfg c op).1 ops

end Verif.Crypto.Drbg
