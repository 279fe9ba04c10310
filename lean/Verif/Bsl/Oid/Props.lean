import Verif.Bsl.Oid.Proof3
/-!
# C47 — object identifiers (`/repo/bsl/obj/src/bsl_obj.c`)

Specification: `Verif/Bsl/Oid/Spec.lean`.  `Spec.der x y rest` are the DER contents octets of `x.y.rest`,
`Spec.text (x :: y :: rest)` its canonical dotted text, and `Spec.Reads s arcs` says that `s` is a dotted text of `arcs`.
-/
namespace Verif.Bsl.Oid.Props
open Verif.Common Verif.Bsl.Oid

/-- The octets turn into a text exactly when they are the DER encoding of an identifier with first number at most 2, second
below 40, the others below `10^18`, whose text has fewer than 256 characters; the result is that text. -/
theorem toText_correct (bs cs : List Byte) :
    toText bs = .ok cs ↔
      ∃ x y rest, x ≤ 2 ∧ y < 40 ∧ (∀ n ∈ rest, n < 10 ^ 18) ∧ bs = Spec.der x y rest ∧ cs = Spec.text (x :: y :: rest) ∧
        cs.length < 256 := toText_spec bs cs
example : toText [0x2a#8, 0x86#8, 0x48#8, 0x86#8, 0xf7#8, 0x0d#8] =
    .ok ("1.2.840.113549".toList.map fun c => BitVec.ofNat 8 c.toNat) := by decide +kernel
/-- A subidentifier padded with a leading 0x80, and one that does not end, are refused. -/
example : toText [0x2a#8, 0x80#8, 0x01#8] = .error .invalid ∧ toText [0x2a#8, 0x86#8] = .error .invalid := by decide +kernel

/-- A text turns into octets exactly when it is a dotted text of at least two and at most 128 numbers, the first at most 2,
the second below 40, all below `2^64`; the result is the DER encoding. -/
theorem fromText_correct (s bs : List Byte) :
    fromText s = .ok bs ↔
      ∃ x y rest, Spec.Reads s (x :: y :: rest) ∧ x ≤ 2 ∧ y < 40 ∧ (∀ n ∈ rest, n < 2 ^ 64) ∧
        rest.length + 2 ≤ 128 ∧ bs = Spec.der x y rest := fromText_spec s bs
example : fromText ("1.2.840.113549".toList.map fun c => BitVec.ofNat 8 c.toNat) =
    .ok [0x2a#8, 0x86#8, 0x48#8, 0x86#8, 0xf7#8, 0x0d#8] := by decide +kernel
example : fromText ("1..2".toList.map fun c => BitVec.ofNat 8 c.toNat) = .error .invalid ∧
    fromText ("1.2.".toList.map fun c => BitVec.ofNat 8 c.toNat) = .error .invalid ∧
    fromText ("1.2.18446744073709551616".toList.map fun c => BitVec.ofNat 8 c.toNat) = .error .invalid := by decide +kernel

/-- Neither function touches memory outside its arrays, whatever the input. -/
theorem no_oob (s : List Byte) : toText s ≠ .error .oob ∧ fromText s ≠ .error .oob :=
  ⟨toText_no_oob s, fromText_no_oob s⟩

/-- The digits used by the specification are the positional digits: their value is the number, they are below the base, and
only the number zero starts with the digit zero. -/
theorem digits_correct (b n : Nat) :
    Spec.value (b + 2) (Spec.digits b n) = n ∧ (∀ d ∈ Spec.digits b n, d < b + 2) ∧
    (0 < n → (Spec.digits b n).head? ≠ some 0) := by
  refine ⟨value_digits b n, digits_lt b n, ?_⟩
  induction n using Nat.strongRecOn with
  | ind n ih =>
    intro hn
    by_cases h : n < b + 2
    · rw [digits_small h]; simp; omega
    · rw [digits_big h]
      have h1 := ih (n / (b + 2)) (Nat.div_lt_self (by omega) (by omega)) (Nat.div_pos (by omega) (by omega))
      have h2 := digits_ne b (n / (b + 2))
      cases hd : Spec.digits b (n / (b + 2)) with
      | nil => exact absurd hd h2
      | cons x r => rw [hd] at h1; simpa using h1

/-- Octets to text and back: whenever octets give a text, the text gives the same
octets. -/
theorem octets_roundtrip (bs cs : List Byte) (h : toText bs = .ok cs) : fromText cs = .ok bs := by
  obtain ⟨x, y, rest, hx, hy, h1, h2, h3, h4⟩ := (toText_spec bs cs).mp h
  refine (fromText_spec cs bs).mpr ⟨x, y, rest, h3 ▸ reads_text _, hx, hy, fun n hn => ?_, ?_, h2⟩
  · exact Nat.lt_trans (h1 n hn) (by decide)
  · -- fewer than 256 characters: at most 128 numbers
    have hl : 2 * rest.length ≤ (tailText rest).length := by
      clear h1 h2 h3
      induction rest with
      | nil => simp
      | cons n r ih =>
        have : 0 < (Spec.number n).length := by
          unfold Spec.number; rw [List.length_map]; exact List.length_pos_iff.mpr (digits_ne 8 n)
        simp only [tailText, List.map_cons, List.flatten_cons, List.length_append, List.length_cons] at ih ⊢
        omega
    have e1 : 0 < (Spec.number x).length := by
      unfold Spec.number; rw [List.length_map]; exact List.length_pos_iff.mpr (digits_ne 8 x)
    have e2 : 0 < (Spec.number y).length := by
      unfold Spec.number; rw [List.length_map]; exact List.length_pos_iff.mpr (digits_ne 8 y)
    rw [h3, text_cons] at h4
    simp only [List.length_append, List.length_cons] at h4
    omega

/-- Text to octets and back: the canonical text of the same numbers, when they are below `10^18` and it is short enough. -/
theorem text_roundtrip (s bs : List Byte) (h : fromText s = .ok bs) :
    ∃ x y rest, Spec.Reads s (x :: y :: rest) ∧
      ((∀ n ∈ rest, n < 10 ^ 18) → (Spec.text (x :: y :: rest)).length < 256 →
        toText bs = .ok (Spec.text (x :: y :: rest))) := by
  obtain ⟨x, y, rest, h1, hx, hy, _, _, h4⟩ := (fromText_spec s bs).mp h
  exact ⟨x, y, rest, h1, fun h2 h3 => (toText_spec bs _).mpr ⟨x, y, rest, hx, hy, h2, h4, rfl, h3⟩⟩

/-- A number the text parser accepts that the octet printer refuses: `10^18`. -/
theorem text_limit : ∃ bs, fromText ("1.2.1000000000000000000".toList.map fun c => BitVec.ofNat 8 c.toNat) = .ok bs ∧
    toText bs = .error .invalid :=
  ⟨[0x2a#8, 0x8d#8, 0xf0#8, 0xad#8, 0xd6#8, 0xba#8, 0xbb#8, 0x90#8, 0x80#8, 0x00#8], by decide +kernel, by decide +kernel⟩

/-- The search by number in a table in increasing order: finds the row with that number, reports absence exactly when there
is none, and reads only rows of the table. -/
theorem index_correct (t : List Info) (hs : Sorted t) (cid : Nat) :
    (getOidIndex t cid = .ok none ∧ ∀ e ∈ t, e.cid ≠ cid) ∨
    ∃ i e, getOidIndex t cid = .ok (some i) ∧ t[i]? = some e ∧ e.cid = cid := getOidIndex_spec t hs cid

/-- The built-in table is in increasing order of numbers, which the search needs, has no two rows with the same octets, and
every row holds a well-formed identifier. -/
theorem table_correct :
    Sorted oidTable ∧ (∀ a ∈ oidTable, ∀ b ∈ oidTable, a.octs = b.octs → a = b) ∧
    ∀ e ∈ oidTable, e.cid ≠ 0 ∧ ∃ cs, toText (e.octs.map (BitVec.ofNat 8)) = .ok cs := by
  refine ⟨table_sorted, fun a ha b hb h => distinctOcts_sound _ table_distinct ha hb h, ?_⟩
  have : oidTable.all (fun e => match toText (e.octs.map (BitVec.ofNat 8)) with | .ok _ => true | .error _ => false) = true := by
    decide +kernel
  intro e he
  refine ⟨(table_nonzero e he).1, ?_⟩
  have := List.all_eq_true.mp this e he
  cases h : toText (e.octs.map (BitVec.ofNat 8)) with
  | ok cs => exact ⟨cs, rfl⟩
  | error x => rw [h] at this; cases this

/-- A registration request. -/
structure Op where
  place : Nat
  octs : List Nat
  name : String
  cid : Nat

/-- The registry after a history of registrations, from the empty one. -/
def run (ops : List Op) (reg : Registry) : Registry :=
  ops.foldl (fun r o => (create o.place r o.octs o.name o.cid).2) reg

theorem run_good (ops : List Op) (reg : Registry) (h : Good reg) : Good (run ops reg) := by
  induction ops generalizing reg with
  | nil => exact h
  | cons o r ih => exact ih _ (create_good _ _ _ _ _ h)

theorem run_mono (ops : List Op) (reg : Registry) {a : Info} (h : a ∈ reg) : a ∈ run ops reg := by
  induction ops generalizing reg with
  | nil => exact h
  | cons o r ih => exact ih _ (create_mono _ _ _ _ _ h)

theorem good_nil : Good [] := ⟨by simp, by simp, by simp⟩

/-- After any history, the octets returned for a number are those of the built-in or registered object with that number, and
an error exactly when there is none. -/
theorem getOid_correct (ops : List Op) (cid : Nat) (octs : List Nat) :
    getOid (run ops []) cid ≠ .error .oob ∧
    (getOid (run ops []) cid = .ok octs ↔ ∃ e ∈ oidTable ++ run ops [], e.cid = cid ∧ e.octs = octs) :=
  getOid_spec _ (run_good ops [] good_nil) cid octs

/-- Built-in objects: number to octets and octets to number are inverse, after any history. -/
theorem builtin_inverse (ops : List Op) (e : Info) (he : e ∈ oidTable) :
    getOid (run ops []) e.cid = .ok e.octs ∧ getCid (run ops []) e.octs = e.cid ∧
    getName (run ops []) e.octs = some e.name := by
  refine ⟨(getOid_correct ops e.cid e.octs).2.mpr ⟨e, List.mem_append_left _ he, rfl, rfl⟩, ?_, ?_⟩
  · unfold getCid
    rw [if_neg (table_nonzero e he).2]
    cases hf : findOid e.octs oidTable with
    | none => exact absurd rfl (findOid_none hf e he)
    | some a =>
      obtain ⟨h1, h2⟩ := findOid_some hf
      show a.cid = _
      rw [distinctOcts_sound _ table_distinct h1 he h2]
  · unfold getName
    rw [if_neg (table_nonzero e he).2]
    cases hf : findOid e.octs oidTable with
    | none => exact absurd rfl (findOid_none hf e he)
    | some a =>
      obtain ⟨h1, h2⟩ := findOid_some hf
      show some a.name = _
      rw [distinctOcts_sound _ table_distinct h1 he h2]
example : (⟨[42, 134, 72, 134, 247, 13, 1, 1, 1], "rsaEncryption", 34⟩ : Info) ∈ oidTable := by decide +kernel

/-- Octets to number, after any history: the number of a known object with these octets; 0 exactly when there is none. -/
theorem getCid_correct (ops : List Op) (oid : List Nat) (hne : oid ≠ []) :
    (getCid (run ops []) oid = 0 ∧ ∀ e ∈ oidTable ++ run ops [], e.octs ≠ oid) ∨
    (getCid (run ops []) oid ≠ 0 ∧ ∃ e ∈ oidTable ++ run ops [], e.octs = oid ∧ e.cid = getCid (run ops []) oid) := by
  have hg := run_good ops [] good_nil
  unfold getCid
  rw [if_neg hne]
  cases hf : findOid oid oidTable with
  | some a =>
    obtain ⟨h1, h2⟩ := findOid_some hf
    exact Or.inr ⟨(table_nonzero a h1).1, a, List.mem_append_left _ h1, h2, rfl⟩
  | none =>
    simp only
    cases hr : findOid oid (run ops []) with
    | some a =>
      obtain ⟨h1, h2⟩ := findOid_some hr
      exact Or.inr ⟨(hg.ok a h1).1, a, List.mem_append_right _ h1, h2, rfl⟩
    | none =>
      refine Or.inl ⟨rfl, fun e he => ?_⟩
      rcases List.mem_append.mp he with he | he
      · exact findOid_none hf e he
      · exact findOid_none hr e he

/-- A registration under a number nobody uses takes effect and stays: whatever is registered before and after, the number
keeps these octets; and the octets lead to the number when no other known object has them. -/
theorem register_permanent (before after : List Op) (o : Op) (ho : o.octs ≠ []) (hc : o.cid ≠ 0)
    (hfree : ∀ e ∈ oidTable ++ run before [], e.cid ≠ o.cid) :
    getOid (run (before ++ o :: after) []) o.cid = .ok o.octs ∧
    ((∀ e ∈ oidTable ++ run (before ++ o :: after) [], e.octs = o.octs → e.cid = o.cid) →
      getCid (run (before ++ o :: after) []) o.octs = o.cid) := by
  have hm : (⟨o.octs, o.name, o.cid⟩ : Info) ∈ run (before ++ o :: after) [] := by
    have e : run (before ++ o :: after) [] = run after (create o.place (run before []) o.octs o.name o.cid).2 := by
      unfold run; rw [List.foldl_append]; rfl
    rw [e]
    apply run_mono
    have n1 : findCid o.cid oidTable = none := by
      cases hf : findCid o.cid oidTable with
      | none => rfl
      | some a =>
        obtain ⟨g1, g2⟩ := findCid_some hf
        exact absurd g2 (hfree a (List.mem_append_left _ g1))
    have n2 : findCid o.cid (run before []) = none := by
      cases hf : findCid o.cid (run before []) with
      | none => rfl
      | some a =>
        obtain ⟨g1, g2⟩ := findCid_some hf
        exact absurd g2 (hfree a (List.mem_append_right _ g1))
    unfold create
    rw [if_neg (by rintro (h | h); exact ho h; exact hc h), n1, n2]
    exact mem_place.mpr (Or.inl rfl)
  refine ⟨(getOid_correct _ _ _).2.mpr ⟨_, List.mem_append_right _ hm, rfl, rfl⟩, fun h => ?_⟩
  rcases getCid_correct (before ++ o :: after) o.octs ho with ⟨_, h2⟩ | ⟨_, e, he, h3, h4⟩
  · exact absurd rfl (h2 _ (List.mem_append_right _ hm))
  · rw [← h4]; exact h e he h3
example : ∀ e ∈ oidTable ++ run [] [], e.cid ≠ 6000 := by decide +kernel

/-- A registration under a number in use reports success and changes nothing, even when its octets differ. -/
theorem register_again (ops : List Op) (o : Op) (ho : o.octs ≠ []) (hc : o.cid ≠ 0)
    (hused : ∃ e ∈ oidTable ++ run ops [], e.cid = o.cid) :
    create o.place (run ops []) o.octs o.name o.cid = (true, run ops []) := by
  obtain ⟨e, he, h⟩ := hused
  unfold create
  rw [if_neg (by rintro (h | h); exact ho h; exact hc h)]
  rcases List.mem_append.mp he with he | he
  · cases hf : findCid o.cid oidTable with
    | none => exact absurd h (findCid_none hf e he)
    | some a => rfl
  · split
    · rfl
    · cases hf : findCid o.cid (run ops []) with
      | none => exact absurd h (findCid_none hf e he)
      | some a => rfl
/-- Instance: the second registration of 6000 with other octets. -/
example : create 0 (run [⟨0, [42, 3], "a", 6000⟩] []) [42, 4] "b" 6000 = (true, [⟨[42, 3], "a", 6000⟩]) := by
  decide +kernel

/-- Names by number, below the limit `BSL_CID_MAX` = 5309. -/
theorem name_correct (cid : Nat) :
    (getNameFromCid 5309 cid = .ok none ∧ ∀ e ∈ oidTable, e.cid ≠ cid) ∨
    ∃ e ∈ oidTable, e.cid = cid ∧ getNameFromCid 5309 cid = .ok (some e.name) := by
  unfold getNameFromCid
  by_cases h : cid ≥ 5309
  · rw [if_pos h]
    refine Or.inl ⟨rfl, fun e he hc => ?_⟩
    have : oidTable.all (fun e => decide (e.cid < 5309)) = true := by decide +kernel
    have := of_decide_eq_true (List.all_eq_true.mp this e he)
    omega
  · rw [if_neg h]
    rcases getOidIndex_spec oidTable table_sorted cid with ⟨h1, h2⟩ | ⟨i, e, h1, h2, h3⟩
    · rw [h1]; exact Or.inl ⟨rfl, h2⟩
    · rw [h1]
      simp only
      rw [h2]
      exact Or.inr ⟨e, List.mem_of_getElem? h2, h3, rfl⟩

end Verif.Bsl.Oid.Props
