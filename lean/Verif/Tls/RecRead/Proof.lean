import Verif.Tls.RecRead.Spec
/-!
# Reading records from a stream: proofs
-/
namespace Verif.Tls.RecRead
open Verif.Common Spec

/-- Positions inside the buffer. -/
def Inv (b : Buf) : Prop := b.start ≤ b.stop ∧ b.stop ≤ b.buf.length

theorem pending_length {b : Buf} (h : Inv b) : (pending b).length = b.stop - b.start := by
  obtain ⟨h1, h2⟩ := h
  unfold pending; rw [List.length_take, List.length_drop]; omega

theorem splice_length {buf : List Byte} {pos : Nat} {bs : List Byte} (h : pos + bs.length ≤ buf.length) :
    (splice buf pos bs).length = buf.length := by
  unfold splice
  rw [List.length_append, List.length_append, List.length_take, List.length_drop]; omega

theorem splice_pending {b : Buf} (h : Inv b) {bs : List Byte} (hb : b.stop + bs.length ≤ b.buf.length) :
    pending { b with buf := splice b.buf b.stop bs, stop := b.stop + bs.length } = pending b ++ bs := by
  obtain ⟨h1, h2⟩ := h
  unfold pending splice
  simp only
  have e1 : (b.buf.take b.stop).drop b.start = (b.buf.drop b.start).take (b.stop - b.start) := List.drop_take
  have e2 : ((b.buf.take b.stop).drop b.start).length = b.stop - b.start := by
    rw [List.length_drop, List.length_take]; omega
  rw [List.append_assoc, List.drop_append_of_le_length (by rw [List.length_take]; omega), ← e1, ← List.append_assoc,
    List.take_append_of_le_length (by rw [List.length_append, e2]; omega),
    List.take_of_length_le (by rw [List.length_append, e2]; omega)]

/-- The outcome of reading until `len` bytes are there. -/
structure Out (len : Nat) (b : Buf) (io : List Io) (r : Ret) (b' : Buf) (io' : List Io) : Prop where
  inv : Inv b'
  size : b'.buf.length = b.buf.length
  conserve : pending b' ++ stream io' = pending b ++ stream io
  full : len ≤ (pending b ++ avail io).length → r = .ok ∧ len ≤ (pending b').length ∧
    pending b' ++ avail io' = pending b ++ avail io ∧ interrupt io' = interrupt io
  part : (pending b ++ avail io).length < len → r = interrupt io ∧ pending b' = pending b ++ avail io

theorem stream_cons_data (bs : List Byte) (r : List Io) : stream (.data bs :: r) = bs ++ stream r := rfl

theorem readLoop_spec (len upper fuel : Nat) (b : Buf) (io : List Io) (hI : Inv b) (hu : upper ≤ b.buf.length)
    (hs : b.start + len ≤ upper) (hlt : b.stop - b.start < len) (hf : len - (b.stop - b.start) ≤ fuel) :
    ∃ r b' io', readLoop len upper fuel b io = (r, b', io') ∧ Out len b io r b' io' ∧
      (pending b').length ≤ upper - b.start := by
  induction fuel generalizing b io with
  | zero => omega
  | succ fuel ih =>
    have hpl := pending_length hI
    obtain ⟨hI1, hI2⟩ := hI
    rw [readLoop, if_neg (by omega)]
    unfold uioRead
    rw [if_neg (by omega)]
    match io with
    | [] =>
      refine ⟨.again, b, [], rfl, ⟨⟨hI1, hI2⟩, rfl, rfl, ?_, ?_⟩, by omega⟩
      · intro h; simp only [avail, List.append_nil] at h; omega
      · intro _; exact ⟨rfl, by simp [avail]⟩
    | .again :: r =>
      refine ⟨.again, b, r, rfl, ⟨⟨hI1, hI2⟩, rfl, rfl, ?_, ?_⟩, by omega⟩
      · intro h; simp only [avail, List.append_nil] at h; omega
      · intro _; exact ⟨rfl, by simp [avail]⟩
    | .eof :: r =>
      refine ⟨.eof, b, r, rfl, ⟨⟨hI1, hI2⟩, rfl, rfl, ?_, ?_⟩, by omega⟩
      · intro h; simp only [avail, List.append_nil] at h; omega
      · intro _; exact ⟨rfl, by simp [avail]⟩
    | .fail :: r =>
      refine ⟨.io, b, r, rfl, ⟨⟨hI1, hI2⟩, rfl, rfl, ?_, ?_⟩, by omega⟩
      · intro h; simp only [avail, List.append_nil] at h; omega
      · intro _; exact ⟨rfl, by simp [avail]⟩
    | .data [] :: r =>
      refine ⟨.again, b, r, by simp, ⟨⟨hI1, hI2⟩, rfl, rfl, ?_, ?_⟩, by omega⟩
      · intro h; simp only [avail, List.append_nil] at h; omega
      · intro _; exact ⟨rfl, by simp [avail]⟩
    | .data (a :: cs) :: r =>
      simp only
      have hav : avail (.data (a :: cs) :: r) = (a :: cs) ++ avail r := by simp [avail]
      have hin : interrupt (.data (a :: cs) :: r) = interrupt r := by simp [interrupt]
      have hne : (a :: cs).length ≠ 0 := by simp
      generalize hbs : a :: cs = bs at hav hin hne
      by_cases hle : bs.length ≤ upper - b.stop
      · rw [if_pos hle]
        simp only
        rw [if_neg hne]
        have hp := splice_pending ⟨hI1, hI2⟩ (bs := bs) (by omega)
        have hl := splice_length (buf := b.buf) (pos := b.stop) (bs := bs) (by omega)
        by_cases hm : b.stop + bs.length - b.start < len
        · rw [if_pos hm]
          obtain ⟨r', b', io', e1, e2, e3⟩ := ih { b with buf := splice b.buf b.stop bs, stop := b.stop + bs.length } r
            ⟨by simp only; omega, by simp only; rw [hl]; omega⟩ (by simp only; rw [hl]; exact hu) hs hm
            (by simp only; omega)
          refine ⟨r', b', io', e1, ?_, e3⟩
          obtain ⟨o1, o2, o3, o4, o5⟩ := e2
          rw [hp] at o3 o4 o5
          refine ⟨o1, o2.trans hl, ?_, ?_, ?_⟩
          · rw [o3, stream_cons_data, List.append_assoc]
          · rw [hav, hin, ← List.append_assoc]; exact o4
          · rw [hav, hin, ← List.append_assoc]; exact o5
        · rw [if_neg hm]
          refine ⟨.ok, _, r, rfl, ⟨⟨by simp only; omega, by simp only; rw [hl]; omega⟩, hl, ?_, ?_, ?_⟩, ?_⟩
          · rw [hp, stream_cons_data, List.append_assoc]
          · intro _
            rw [hp, hav, hin]
            exact ⟨rfl, by rw [List.length_append, hpl]; omega, by rw [List.append_assoc], rfl⟩
          · intro h
            rw [hav, List.length_append, List.length_append, hpl] at h; omega
          · rw [hp, List.length_append, hpl]; omega
      · rw [if_neg hle]
        simp only
        have ht : (bs.take (upper - b.stop)).length = upper - b.stop := by rw [List.length_take]; omega
        rw [if_neg (by omega)]
        have hp := splice_pending ⟨hI1, hI2⟩ (bs := bs.take (upper - b.stop)) (by omega)
        have hl := splice_length (buf := b.buf) (pos := b.stop) (bs := bs.take (upper - b.stop)) (by omega)
        rw [if_neg (by omega)]
        have hdne : bs.drop (upper - b.stop) ≠ [] := by
          intro h; have := congrArg List.length h; rw [List.length_drop, List.length_nil] at this; omega
        have hav' : avail (.data (bs.drop (upper - b.stop)) :: r) = bs.drop (upper - b.stop) ++ avail r := by
          cases hd : bs.drop (upper - b.stop) with
          | nil => exact absurd hd hdne
          | cons x y => simp [avail]
        have hin' : interrupt (.data (bs.drop (upper - b.stop)) :: r) = interrupt r := by
          cases hd : bs.drop (upper - b.stop) with
          | nil => exact absurd hd hdne
          | cons x y => simp [interrupt]
        refine ⟨.ok, _, _, rfl, ⟨⟨by simp only; omega, by simp only; rw [hl]; omega⟩, hl, ?_, ?_, ?_⟩, ?_⟩
        · rw [hp, stream_cons_data, stream_cons_data, List.append_assoc, ← List.append_assoc (bs.take _),
            List.take_append_drop]
        · intro _
          rw [hp, hav, hin, hav', hin']
          exact ⟨rfl, by rw [List.length_append, hpl]; omega,
            by rw [List.append_assoc, ← List.append_assoc (bs.take _), List.take_append_drop], rfl⟩
        · intro h
          rw [hav, List.length_append, List.length_append, hpl] at h; omega
        · rw [hp, List.length_append, hpl]; omega

theorem moveLoop_spec (start n i : Nat) (buf : List Byte) (h : start + i + n ≤ buf.length) :
    ∃ buf', moveLoop start n i buf = some buf' ∧ buf'.length = buf.length ∧
      ∀ j, buf'[j]? = if i ≤ j ∧ j < i + n then buf[start + j]? else buf[j]? := by
  induction n generalizing i buf with
  | zero => exact ⟨buf, rfl, rfl, fun j => by rw [if_neg (by omega)]⟩
  | succ n ih =>
    rw [moveLoop]
    have hx : buf[start + i]? = some (buf[start + i]'(by omega)) := List.getElem?_eq_getElem (by omega)
    rw [hx]
    simp only
    rw [if_pos (by omega)]
    obtain ⟨buf', e1, e2, e3⟩ := ih (i + 1) (buf.set i (buf[start + i]'(by omega))) (by rw [List.length_set]; omega)
    refine ⟨buf', e1, by rw [e2, List.length_set], fun j => ?_⟩
    rw [e3 j]
    by_cases hj : i + 1 ≤ j ∧ j < i + 1 + n
    · rw [if_pos hj, if_pos (by omega), List.getElem?_set_ne (by omega)]
    · rw [if_neg hj]
      by_cases hji : j = i
      · subst hji
        rw [if_pos (by omega), List.getElem?_set_self (by omega), hx]
      · rw [if_neg (by omega), List.getElem?_set_ne (by omega)]

theorem shift_spec (len : Nat) (b : Buf) (h : Inv b) :
    ∃ b', shift len b = some b' ∧ Inv b' ∧ b'.buf.length = b.buf.length ∧ pending b' = pending b ∧
      ((b'.start = 0 ∧ b'.stop = b.stop - b.start) ∨ (b' = b ∧ len ≤ b.buf.length - b.stop)) := by
  unfold shift
  by_cases hs : b.buf.length - b.stop < len
  · rw [if_pos hs]
    obtain ⟨h1, h2⟩ := h
    obtain ⟨buf', e1, e2, e3⟩ := moveLoop_spec b.start (b.stop - b.start) 0 b.buf (by omega)
    rw [e1]
    refine ⟨_, rfl, ⟨by simp, by simp only; omega⟩, e2, ?_, Or.inl ⟨rfl, rfl⟩⟩
    unfold pending
    simp only [List.drop_zero, Nat.sub_zero]
    apply List.ext_getElem?
    intro j
    rw [List.getElem?_take, List.getElem?_take, List.getElem?_drop, e3 j]
    by_cases hj : j < b.stop - b.start
    · rw [if_pos hj, if_pos hj, if_pos (by omega)]
    · rw [if_neg hj, if_neg hj]
  · rw [if_neg hs]
    exact ⟨b, rfl, h, rfl, rfl, Or.inr ⟨rfl, by omega⟩⟩

theorem reset_spec (b : Buf) (h : Inv b) : Inv (reset b) ∧ (reset b).buf = b.buf ∧ pending (reset b) = pending b ∧
    (reset b).stop - (reset b).start = b.stop - b.start := by
  unfold reset
  split
  · rename_i h0
    refine ⟨⟨by simp, by simp⟩, rfl, ?_, by simp only; omega⟩
    unfold pending; rw [h0]; simp
  · exact ⟨h, rfl, rfl, rfl⟩

theorem streamRead_spec (ra : Bool) (len : Nat) (b : Buf) (io : List Io) (hI : Inv b) (hlen : len ≤ b.buf.length) :
    ∃ r b' io', streamRead ra len b io = (r, b', io') ∧ Out len b io r b' io' ∧
      (ra = false → (pending b').length ≤ max len (pending b).length) := by
  obtain ⟨r1, r2, r3, r4⟩ := reset_spec b hI
  have hpl := pending_length hI
  unfold streamRead
  by_cases hge : b.stop - b.start ≥ len
  · rw [if_pos hge]
    refine ⟨.ok, _, io, rfl, ⟨r1, by rw [r2], by rw [r3], ?_, ?_⟩, fun _ => by rw [r3]; omega⟩
    · intro _; rw [r3]; exact ⟨rfl, by omega, rfl, rfl⟩
    · intro h; rw [List.length_append] at h; omega
  · rw [if_neg hge]
    obtain ⟨b', s1, s2, s3, s4, s5⟩ := shift_spec len (reset b) r1
    rw [s1]
    simp only
    have hd : b'.stop - b'.start = b.stop - b.start := by
      rw [← pending_length s2, s4, r3, hpl]
    have hfit : b'.start + len ≤ b'.buf.length := by
      obtain ⟨i1, i2⟩ := r1
      rw [s3, r2]
      rcases s5 with ⟨p1, _⟩ | ⟨p1, p2⟩
      · omega
      · rw [p1]; rw [r2] at p2 i2; omega
    unfold streamFill
    simp only
    have hcond : b'.buf.length ≥ b'.start + len - b'.stop := by omega
    obtain ⟨upper, hup⟩ : ∃ u, u = (if ra = false ∧ b'.buf.length ≥ b'.start + len - b'.stop then b'.start + len
      else b'.buf.length) := ⟨_, rfl⟩
    rw [← hup]
    have hu1 : upper ≤ b'.buf.length := by rw [hup]; split <;> omega
    have hu2 : b'.start + len ≤ upper := by rw [hup]; split <;> omega
    obtain ⟨r, b2, io2, e1, e2, e3⟩ := readLoop_spec len upper len b' io s2 hu1 hu2 (by omega) (by omega)
    refine ⟨r, b2, io2, e1, ?_, ?_⟩
    · obtain ⟨o1, o2, o3, o4, o5⟩ := e2
      rw [s4, r3] at o3 o4 o5
      exact ⟨o1, by rw [o2, s3, r2], o3, o4, o5⟩
    · intro hra
      rw [hup, if_pos ⟨hra, hcond⟩] at e3
      omega

theorem resize_spec (b : Buf) (size : Nat) (hI : Inv b) (hs : size > b.buf.length) :
    ∃ b', resize b size = some b' ∧ Inv b' ∧ b'.buf.length = size ∧ pending b' = pending b := by
  obtain ⟨h1, h2⟩ := hI
  unfold resize
  rw [if_neg (by omega), if_neg (by omega)]
  have hl : ((b.buf.drop b.start).take (b.stop - b.start)).length = b.stop - b.start := by
    rw [List.length_take, List.length_drop]; omega
  refine ⟨_, rfl, ⟨by simp, ?_⟩, ?_, ?_⟩
  · simp only [List.length_append, hl, List.length_replicate]; omega
  · simp only [List.length_append, hl, List.length_replicate]; omega
  · unfold pending
    simp only [List.drop_zero, Nat.sub_zero]
    rw [List.take_append_of_le_length (by omega), List.take_of_length_le (by omega)]

/-! ## Headers -/

theorem beVal2_lt (a b : Byte) : beVal [a, b] < 2 ^ 16 := by
  have := beVal_lt [a, b]
  have e : 256 ^ [a, b].length = 2 ^ 16 := by rw [show [a, b].length = 2 from rfl]
  rwa [e] at this

theorem beBytes2 (a b : Byte) : beBytes 2 (beVal [a, b]) = [a, b] := beBytes_beVal [a, b]

theorem tls13_iff (v : Nat) : tls13Family v = true ↔ Tls13 v := by
  unfold tls13Family Tls13; simp

theorem knownType_iff (c : Ctx) (t : Byte) : knownType c t = true ↔ TypeOk c t := by
  unfold knownType TypeOk Ctx.current
  rw [← tls13_iff]
  simp only [List.mem_cons, List.not_mem_nil, or_false]
  by_cases ht : t = 20 ∨ t = 21 ∨ t = 22 ∨ t = 23 ∨ t = 26
  · rw [if_pos ht]
    cases hf : tls13Family (if c.version > 0 then c.version else c.maxVersion) <;> cases hs : c.hasSuite
    · simpa using ht
    · simpa using ht
    · simpa using ht
    · simp only [Bool.and_true, if_true]
      have : (t = 20#8 ∨ t = 21#8 ∨ t = 22#8 ∨ t = 23#8 ∨ t = 26#8) = True := eq_true ht
      rw [this]
      cases hh : c.hsCtx
      · by_cases h1 : t = 23 <;> by_cases h2 : t = 21 <;> simp [h1, h2]
      · by_cases h1 : t = 23 <;> by_cases h2 : t = 21 <;> by_cases h3 : t = 20 <;> simp [h1, h2, h3]
  · rw [if_neg ht]
    constructor
    · intro h; cases h
    · rintro ⟨h, _⟩; exact absurd h ht

theorem checkVersion_iff (c : Ctx) (v : Nat) (t : Byte) : checkVersion c v t = true ↔ VersionOk c v t := by
  unfold checkVersion VersionOk versionProcess
  by_cases h0 : c.version = 0
  · rw [if_pos h0, if_pos h0]
    by_cases h1 : v / 256 = 3 <;> by_cases h2 : v = 0x0101 <;> simp [h1, h2]
  · rw [if_neg h0, if_neg h0]
    by_cases h3 : c.version = 0x0304
    · by_cases h4 : v = 0x0303 <;> simp [h3, h4]
    · by_cases h5 : v = c.version
      · simp [h3, h5]
      · by_cases h6 : v / 256 = c.version / 256 <;> by_cases h7 : t = 21 <;> simp [h3, h5, h6, h7]

theorem length_iff (c : Ctx) (n : Nat) :
    (¬ n + 5 > readBufferSize c ∧ ¬ (tls13Family c.version && decide (n > 16384 + 256)) = true) ↔ LengthOk c n := by
  have hcur : tls13Family c.current = true ↔
      (c.version = 0x0304 ∨ c.version = 0xfefc ∨ (c.version = 0 ∧ (c.maxVersion = 0x0304 ∨ c.maxVersion = 0xfefc))) := by
    rw [tls13_iff]
    unfold Tls13 Ctx.current
    split <;> omega
  have e2 : ¬ (tls13Family c.version && decide (n > 16384 + 256)) = true ↔ (Tls13 c.version → n ≤ 16384 + 256) := by
    rw [← tls13_iff]
    cases tls13Family c.version <;> simp
  rw [e2]
  unfold LengthOk readBufferSize
  simp only
  by_cases hl : c.recordSizeLimit ≠ 0 ∧ c.recordSizeLimit ≤ 16384
  · rw [if_pos hl]
    obtain ⟨l1, l2⟩ := hl
    by_cases hf : tls13Family c.current = true
    · rw [if_pos hf, if_pos (hcur.mp hf)]
      constructor
      · rintro ⟨a, b⟩; exact ⟨by omega, by omega, b⟩
      · rintro ⟨_, a, b⟩; exact ⟨by have := a l1 l2; omega, b⟩
    · rw [if_neg hf, if_neg (fun h => hf (hcur.mpr h))]
      constructor
      · rintro ⟨a, b⟩; exact ⟨by omega, by omega, b⟩
      · rintro ⟨_, a, b⟩; exact ⟨by have := a l1 l2; omega, b⟩
  · rw [if_neg hl]
    constructor
    · rintro ⟨a, b⟩; exact ⟨by omega, by omega, b⟩
    · rintro ⟨a, _, b⟩; exact ⟨by have := a (by omega); omega, b⟩

/-- The check of a header: it never loses data, and accepts what it should. -/
theorem checkHeader_spec (c : Ctx) (t : Byte) (v n : Nat) (b : Buf) (hI : Inv b) :
    ∃ r b', checkHeader c t v n b = (r, b') ∧ Inv b' ∧ pending b' = pending b ∧ b.buf.length ≤ b'.buf.length ∧
      ((r = .ok ∧ Accepts c t v n ∧ n + 5 ≤ b'.buf.length) ∨
       ((r = .unexpected ∨ r = .badVersion ∨ r = .overflow) ∧ ¬ Accepts c t v n)) := by
  unfold checkHeader
  by_cases h1 : knownType c t = false ∧ (c.readCb = false ∨ c.tlcp = false)
  · rw [if_pos h1]
    refine ⟨_, b, rfl, hI, rfl, Nat.le_refl _, Or.inr ⟨Or.inl rfl, fun h => ?_⟩⟩
    rcases h.1 with h | ⟨ha, hb⟩
    · rw [(knownType_iff c t).mpr h] at h1; cases h1.1
    · rcases h1.2 with h' | h' <;> simp_all
  · rw [if_neg h1]
    have hA : TypeOk c t ∨ (c.readCb = true ∧ c.tlcp = true) := by
      rw [← knownType_iff]
      cases hk : knownType c t <;> cases hr : c.readCb <;> cases ht : c.tlcp <;> simp_all
    by_cases h2 : checkVersion c v t = false
    · rw [if_pos h2]
      refine ⟨_, b, rfl, hI, rfl, Nat.le_refl _, Or.inr ⟨Or.inr (Or.inl rfl), fun h => ?_⟩⟩
      rw [(checkVersion_iff c v t).mpr h.2.1] at h2; cases h2
    · rw [if_neg h2]
      have hV : VersionOk c v t := (checkVersion_iff c v t).mp (by simpa using h2)
      by_cases h3 : n + 5 > readBufferSize c
      · rw [if_pos h3]
        refine ⟨_, b, rfl, hI, rfl, Nat.le_refl _, Or.inr ⟨Or.inr (Or.inr rfl), fun h => ?_⟩⟩
        exact ((length_iff c n).mpr h.2.2).1 h3
      · rw [if_neg h3]
        obtain ⟨b', e1, e2, e3, e4, e5⟩ : ∃ b', (if n + 5 > b.buf.length then resize b (n + 5) else some b) = some b' ∧
            Inv b' ∧ pending b' = pending b ∧ b.buf.length ≤ b'.buf.length ∧ n + 5 ≤ b'.buf.length := by
          by_cases h4 : n + 5 > b.buf.length
          · rw [if_pos h4]
            obtain ⟨b', f1, f2, f3, f4⟩ := resize_spec b (n + 5) hI h4
            exact ⟨b', f1, f2, f4, by omega, by omega⟩
          · rw [if_neg h4]; exact ⟨b, rfl, hI, rfl, Nat.le_refl _, by omega⟩
        rw [e1]
        simp only
        by_cases h5 : (tls13Family c.version && decide (n > 16384 + 256)) = true
        · rw [if_pos h5]
          refine ⟨_, b', rfl, e2, e3, e4, Or.inr ⟨Or.inr (Or.inr rfl), fun h => ?_⟩⟩
          exact ((length_iff c n).mpr h.2.2).2 h5
        · rw [if_neg h5]
          exact ⟨_, b', rfl, e2, e3, e4, Or.inl ⟨rfl, ⟨hA, hV, (length_iff c n).mp ⟨h3, h5⟩⟩, e5⟩⟩

theorem header_spec (b : Buf) (hI : Inv b) (h5 : 5 ≤ (pending b).length) :
    ∃ t v1 v0 n1 n0 rest, pending b = t :: v1 :: v0 :: n1 :: n0 :: rest ∧
      header b = some (t, beVal [v1, v0], beVal [n1, n0]) := by
  have hp : pending b <+: b.buf.drop b.start := List.take_prefix _ _
  obtain ⟨t, v1, v0, n1, n0, rest, e⟩ : ∃ t v1 v0 n1 n0 rest, pending b = t :: v1 :: v0 :: n1 :: n0 :: rest := by
    match hq : pending b, h5 with
    | t :: v1 :: v0 :: n1 :: n0 :: rest, _ => exact ⟨t, v1, v0, n1, n0, rest, rfl⟩
    | [], h => simp at h
    | [_], h => simp at h
    | [_, _], h => simp at h
    | [_, _, _], h => simp at h
    | [_, _, _, _], h => simp at h
  refine ⟨t, v1, v0, n1, n0, rest, e, ?_⟩
  obtain ⟨z, hz⟩ := hp
  unfold header
  rw [← hz, e]
  rfl

theorem wire_eq (t v1 v0 n1 n0 : Byte) (rest : List Byte) :
    t :: v1 :: v0 :: n1 :: n0 :: rest = [t] ++ beBytes 2 (beVal [v1, v0]) ++ beBytes 2 (beVal [n1, n0]) ++ rest := by
  rw [beBytes2, beBytes2]; rfl

/-- The outcome of one read. -/
structure Step (c : Ctx) (b : Buf) (io : List Io) (r : Ret) (o : Option Rec) (b' : Buf) (io' : List Io) : Prop where
  inv : Inv b'
  size : b.buf.length ≤ b'.buf.length
  next : Next c (interrupt io) (pending b ++ avail io) r o
  some_iff : r = .ok ↔ o.isSome = true
  conserve : wireOpt o ++ pending b' ++ stream io' = pending b ++ stream io
  keep : r = .again ∨ r = .eof ∨ r = .io → pending b' = pending b ++ avail io

theorem interrupt_cases (io : List Io) : interrupt io = .again ∨ interrupt io = .eof ∨ interrupt io = .io := by
  induction io with
  | nil => exact Or.inl rfl
  | cons e r ih =>
    match e with
    | .data [] => exact Or.inl rfl
    | .data (a :: bs) => exact ih
    | .again => exact Or.inl rfl
    | .eof => exact Or.inr (Or.inl rfl)
    | .fail => exact Or.inr (Or.inr rfl)

theorem interrupt_ne_ok (io : List Io) : interrupt io ≠ .ok := by
  rcases interrupt_cases io with h | h | h <;> rw [h] <;> simp

theorem readBody_spec (c : Ctx) (t v1 v0 n1 n0 : Byte) (rest : List Byte) (b : Buf) (io : List Io) (hI : Inv b)
    (hp : pending b = t :: v1 :: v0 :: n1 :: n0 :: rest) (hacc : Accepts c t (beVal [v1, v0]) (beVal [n1, n0]))
    (hfit : beVal [n1, n0] + 5 ≤ b.buf.length) :
    ∃ r o b' io', readBody c t (beVal [v1, v0]) (beVal [n1, n0]) b io = ((r, o), b', io') ∧ Step c b io r o b' io' ∧
      (c.readAhead = false → (pending b).length ≤ 5 + beVal [n1, n0] →
        (r = .ok → pending b' = []) ∧ (r ≠ .ok → (pending b').length ≤ 5 + beVal [n1, n0])) ∧
      (r = .ok ∨ r = .again ∨ r = .eof ∨ r = .io) := by
  have hv := beVal2_lt v1 v0
  have hn := beVal2_lt n1 n0
  obtain ⟨r, b1, io1, e1, e2, e3⟩ := streamRead_spec c.readAhead (5 + beVal [n1, n0]) b io hI (by omega)
  generalize hN : beVal [n1, n0] = n at hacc hfit hn e1 e2 e3
  obtain ⟨o1, o2, o3, o4, o5⟩ := e2
  unfold readBody
  rw [e1]
  by_cases hfull : 5 + n ≤ (pending b ++ avail io).length
  · obtain ⟨f1, f2, f3, f4⟩ := o4 hfull
    subst f1
    simp only
    have hpl := pending_length o1
    obtain ⟨i1, i2⟩ := o1
    rw [if_neg (by omega)]
    have hbody : (b1.buf.drop (b1.start + 5)).take n = ((pending b1).drop 5).take n := by
      unfold pending
      rw [List.drop_take, List.drop_drop, List.take_take, Nat.min_eq_left (by omega)]
    have hb' : pending { b1 with start := b1.start + (5 + n) } = (pending b1).drop (5 + n) := by
      unfold pending
      rw [List.drop_take, List.drop_drop]
      simp only
      rw [show b1.stop - (b1.start + (5 + n)) = b1.stop - b1.start - (5 + n) by omega]
    have hpre : ∃ z, pending b1 = t :: v1 :: v0 :: n1 :: n0 :: z ∧ n ≤ z.length := by
      rw [hp] at f3
      match hq : pending b1, f2 with
      | a0 :: a1 :: a2 :: a3 :: a4 :: z, hz =>
        rw [hq] at f3
        simp only [List.cons_append, List.cons.injEq] at f3
        obtain ⟨rfl, rfl, rfl, rfl, rfl, _⟩ := f3
        exact ⟨z, rfl, by simp only [List.length_cons] at hz; omega⟩
      | [], h => simp only [List.length_nil] at h; omega
      | [_], h => simp only [List.length_cons, List.length_nil] at h; omega
      | [_, _], h => simp only [List.length_cons, List.length_nil] at h; omega
      | [_, _, _], h => simp only [List.length_cons, List.length_nil] at h; omega
      | [_, _, _, _], h => simp only [List.length_cons, List.length_nil] at h; omega
    obtain ⟨z, hz, hzl⟩ := hpre
    have hbody' : (b1.buf.drop (b1.start + 5)).take n = z.take n := by rw [hbody, hz]; rfl
    have hrest : pending { b1 with start := b1.start + (5 + n) } = z.drop n := by
      rw [hb', hz, Nat.add_comm 5 n]; rfl
    have htl : (z.take n).length = n := by rw [List.length_take]; omega
    have hwire : pending b1 = wire ⟨t, beVal [v1, v0], z.take n⟩ ++ z.drop n := by
      unfold wire
      rw [hz]
      simp only
      rw [htl, ← hN, beBytes2, beBytes2, hN, List.append_assoc, List.append_assoc, List.append_assoc,
        List.take_append_drop]
      rfl
    rw [hbody']
    refine ⟨.ok, _, _, io1, rfl, ⟨⟨by simp only; omega, i2⟩, by simp only; omega, ?_, by simp, ?_, by simp⟩, ?_, Or.inl rfl⟩
    · rw [← f3, hwire, List.append_assoc]
      exact Next.record t _ _ _ hv (by rw [htl]; exact hn) (by rw [htl]; exact hacc)
    · show wire _ ++ _ ++ _ = _
      rw [hrest, ← hwire, o3]
    · intro hra hle
      refine ⟨fun _ => ?_, fun h => absurd rfl h⟩
      have := e3 hra
      apply List.eq_nil_of_length_eq_zero
      rw [hb', List.length_drop]; omega
  · obtain ⟨f1, f2⟩ := o5 (by omega)
    have hshort : rest.length + (avail io).length < n := by
      rw [List.length_append, hp] at hfull; simp only [List.length_cons] at hfull; omega
    have hstep : Step c b io (interrupt io) none b1 io1 := by
      refine ⟨o1, by omega, ?_, ?_, ?_, fun _ => f2⟩
      · rw [hp]
        have : t :: v1 :: v0 :: n1 :: n0 :: rest ++ avail io = [t] ++ beBytes 2 (beVal [v1, v0]) ++ beBytes 2 n ++
            (rest ++ avail io) := by
          rw [← hN, ← wire_eq]; rfl
        rw [this]
        exact Next.partialBody t _ n _ hv hn hacc (by rw [List.length_append]; exact hshort)
      · constructor
        · intro h; exact absurd h (interrupt_ne_ok io)
        · intro h; cases h
      · simpa [wireOpt] using o3
    refine ⟨interrupt io, none, b1, io1, ?_, hstep, ?_, Or.inr (interrupt_cases io)⟩
    · rw [f1]
      rcases interrupt_cases io with h | h | h <;> rw [h]
    · intro hra hle
      refine ⟨fun h => absurd h (interrupt_ne_ok io), fun _ => ?_⟩
      have := e3 hra; omega

/-- The buffer holds no more than the current record. -/
def Lean (p : List Byte) : Prop :=
  p.length ≤ 5 ∨ ∃ t v1 v0 n1 n0 rest, p = t :: v1 :: v0 :: n1 :: n0 :: rest ∧ rest.length ≤ beVal [n1, n0]

theorem tryRead_spec (c : Ctx) (b : Buf) (io : List Io) (hI : Inv b) (h5 : 5 ≤ b.buf.length) :
    ∃ r o b' io', tryRead c b io = ((r, o), b', io') ∧ Step c b io r o b' io' ∧
      (c.readAhead = false → Lean (pending b) → (r = .ok → pending b' = []) ∧ Lean (pending b')) := by
  obtain ⟨r, b1, io1, e1, e2, e3⟩ := streamRead_spec c.readAhead 5 b io hI h5
  obtain ⟨o1, o2, o3, o4, o5⟩ := e2
  unfold tryRead
  rw [e1]
  by_cases hfull : 5 ≤ (pending b ++ avail io).length
  · obtain ⟨f1, f2, f3, f4⟩ := o4 hfull
    subst f1
    simp only
    obtain ⟨t, v1, v0, n1, n0, rest, g1, g2⟩ := header_spec b1 o1 f2
    rw [g2]
    simp only
    have hv := beVal2_lt v1 v0
    have hn := beVal2_lt n1 n0
    have hlean : c.readAhead = false → Lean (pending b) → rest.length ≤ beVal [n1, n0] := by
      intro hra hl
      have := e3 hra
      rcases hl with hl | ⟨t', v1', v0', n1', n0', rest', hl1, hl2⟩
      · rw [g1] at this; simp only [List.length_cons] at this; omega
      · rw [hl1, g1] at this f3
        simp only [List.cons_append, List.cons.injEq] at f3
        obtain ⟨_, _, _, rfl, rfl, _⟩ := f3
        simp only [List.length_cons] at this; omega
    obtain ⟨r2, b2, c1, c2, c3, c4, c5⟩ := checkHeader_spec c t (beVal [v1, v0]) (beVal [n1, n0]) b1 o1
    rw [c1]
    rcases c5 with ⟨rfl, hacc, hfit⟩ | ⟨hr, hrej⟩
    · simp only
      obtain ⟨r3, o, b3, io3, d1, d2, d3, d4⟩ := readBody_spec c t v1 v0 n1 n0 rest b2 io1 c2 (c3.trans g1) hacc hfit
      refine ⟨r3, o, b3, io3, d1, ?_, ?_⟩
      · obtain ⟨s1, s2, s3, s4, s5, s6⟩ := d2
        rw [c3] at s3 s5 s6
        rw [f3] at s3 s6
        rw [f4] at s3
        exact ⟨s1, by omega, s3, s4, by rw [s5, o3], s6⟩
      · intro hra hl
        have hlr := hlean hra hl
        have hd := d3 hra (by rw [c3, g1]; simp only [List.length_cons]; omega)
        refine ⟨hd.1, ?_⟩
        by_cases hok : r3 = .ok
        · rw [hd.1 hok]; exact Or.inl (by simp)
        · have hlen := hd.2 hok
          have hst := d2
          have hk : pending b3 = pending b2 ++ avail io1 := by
            exact hst.keep (d4.resolve_left hok)
          right
          rw [hk, c3, g1]
          refine ⟨t, v1, v0, n1, n0, rest ++ avail io1, rfl, ?_⟩
          rw [hk, c3, g1] at hlen
          simp only [List.length_cons, List.cons_append] at hlen; omega
    · have hne : r2 ≠ .ok := by rcases hr with h | h | h <;> rw [h] <;> simp
      refine ⟨r2, none, b2, io1, ?_, ?_, ?_⟩
      · rcases hr with h | h | h <;> rw [h]
      · refine ⟨c2, by omega, ?_, ?_, ?_, ?_⟩
        · rw [← f3, g1]
          have : t :: v1 :: v0 :: n1 :: n0 :: rest ++ avail io1 = [t] ++ beBytes 2 (beVal [v1, v0]) ++
              beBytes 2 (beVal [n1, n0]) ++ (rest ++ avail io1) := by
            rw [← wire_eq]; rfl
          rw [this]
          exact Next.rejected t _ _ _ r2 hv hn hrej hr
        · constructor
          · intro h; exact absurd h hne
          · intro h; cases h
        · show [] ++ pending b2 ++ stream io1 = _
          rw [List.nil_append, c3, o3]
        · intro h
          rcases hr with h' | h' | h' <;> rw [h'] at h <;> simp at h
      · intro hra hl
        refine ⟨fun h => absurd h hne, Or.inr ⟨t, v1, v0, n1, n0, rest, by rw [c3, g1], hlean hra hl⟩⟩
  · obtain ⟨f1, f2⟩ := o5 (by omega)
    refine ⟨interrupt io, none, b1, io1, ?_, ⟨o1, by omega, ?_, ?_, ?_, fun _ => f2⟩, ?_⟩
    · rw [f1]; rcases interrupt_cases io with h | h | h <;> rw [h]
    · exact Next.short _ (by omega)
    · constructor
      · intro h; exact absurd h (interrupt_ne_ok io)
      · intro h; cases h
    · simpa [wireOpt] using o3
    · intro _ _
      exact ⟨fun h => absurd h (interrupt_ne_ok io), Or.inl (by rw [f2]; omega)⟩

end Verif.Tls.RecRead
