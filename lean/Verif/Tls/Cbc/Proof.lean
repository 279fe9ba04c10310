import Verif.Tls.Cbc.Model
import Verif.Bsl.Bytes.Props
/-!
Lemmas for the CBC record proofs.
-/
namespace Verif.Tls.Cbc
open Verif.Common Verif.Bsl.Bytes

theorem mask_true : mask (true = true) = BitVec.allOnes 32 := by simp [mask]
theorem mask_false : mask (false = true) = 0#32 := by simp [mask]

theorem mask_False [Decidable False] : mask False = 0#32 := by simp [mask]

theorem mask_iff {p q : Prop} [Decidable p] [Decidable q] (h : p ↔ q) : mask p = mask q := by
  unfold mask
  by_cases hp : p
  · rw [if_pos hp, if_pos (h.1 hp)]
  · rw [if_neg hp, if_neg (fun hq => hp (h.2 hq))]

theorem mask_True [Decidable True] : mask True = mask (true = true) := mask_iff (by simp)

theorem mask_bool (p : Prop) [Decidable p] : mask p = mask (decide p = true) := mask_iff (by simp)

theorem mask_and (a b : Bool) : mask (a = true) &&& mask (b = true) = mask ((a && b) = true) := by
  cases a <;> cases b <;> decide

theorem and_mask (x : BitVec 32) (a : Bool) : x &&& mask (a = true) = if a then x else 0#32 := by
  cases a
  · rw [mask_false]; simp
  · rw [mask_true, BitVec.and_allOnes]; simp

theorem not_mask_eq_zero (a : Bool) : ~~~ mask (a = true) = 0#32 ↔ a = true := by
  cases a <;> decide

theorem ptrSelect_mask {α : Type} (g : Bool) (a b : α) : ptrSelect (mask (g = true)) a b = if g then a else b := by
  cases g
  · rw [mask_false]; simp [ptrSelect]
  · rw [mask_true]
    unfold ptrSelect
    rw [if_pos (by decide)]; simp

theorem padLoop_spec (plain : List Byte) (N : Nat) (pb : Byte) (hN : plain.length = N) (h1 : 1 ≤ N) (h2 : N < 2 ^ 32)
    (hpb : plain[N - 1]? = some pb) :
    ∀ (is : List Nat) (g : Bool), (g = true → pb.toNat + 1 ≤ N) →
      (∀ i ∈ is, i < 2 ^ 32) →
      ∃ q : Bool, padLoop plain (BitVec.ofNat 32 N) (pb.setWidth 32) is (mask (g = true)) = some (mask (q = true)) ∧
        (q = true ↔ g = true ∧ ∀ i ∈ is, i ≤ pb.toNat → plain[N - 1 - i]? = some pb) := by
  intro is
  induction is with
  | nil => intro g _ _; exact ⟨g, rfl, by simp⟩
  | cons i is ih =>
    intro g hg hi
    have hi0 : i < 2 ^ 32 := hi i (by simp)
    have hpblt := pb.isLt
    have hpt : (pb.setWidth 32).toNat = pb.toNat := by simp; omega
    unfold padLoop
    simp only
    have hmask : mask (g = true) &&& ctLe (BitVec.ofNat 32 i) (pb.setWidth 32) =
        mask ((g && decide (i ≤ pb.toNat)) = true) := by
      rw [ctLe_spec, mask_bool ((BitVec.ofNat 32 i).toNat ≤ _), mask_and]
      rw [hpt, BitVec.toNat_ofNat, Nat.mod_eq_of_lt hi0]
    rw [hmask, and_mask]
    -- the index
    have hidx : (BitVec.ofNat 32 N - 1#32 - (if (g && decide (i ≤ pb.toNat)) = true then BitVec.ofNat 32 i else 0#32)).toNat
        = N - 1 - (if (g && decide (i ≤ pb.toNat)) = true then i else 0) := by
      split
      · rename_i hc
        simp only [Bool.and_eq_true, decide_eq_true_eq] at hc
        have := hg hc.1
        rw [BitVec.toNat_sub, BitVec.toNat_sub]
        simp only [BitVec.toNat_ofNat, Nat.mod_eq_of_lt h2, Nat.mod_eq_of_lt hi0]
        omega
      · rw [BitVec.sub_zero, BitVec.toNat_sub]
        simp only [BitVec.toNat_ofNat, Nat.mod_eq_of_lt h2]
        omega
    rw [hidx]
    have hlt : N - 1 - (if (g && decide (i ≤ pb.toNat)) = true then i else 0) < plain.length := by omega
    rw [List.getElem?_eq_getElem hlt]
    simp only
    have hgood : mask (g = true) &&& ctEqual ((plain[N - 1 - (if (g && decide (i ≤ pb.toNat)) = true then i else 0)]).setWidth 32)
        (pb.setWidth 32) = mask ((g && decide (i ≤ pb.toNat → plain[N - 1 - i]? = some pb)) = true) := by
      rw [ctEqual_spec, mask_bool ((_ : BitVec 32) = _), mask_and]
      apply mask_iff
      have hinj : ∀ x : Byte, x.setWidth 32 = pb.setWidth 32 ↔ x = pb := by
        intro x
        constructor
        · intro h
          have := congrArg BitVec.toNat h
          have hx := x.isLt
          simp only [BitVec.toNat_setWidth] at this
          apply BitVec.eq_of_toNat_eq
          omega
        · rintro rfl; rfl
      simp only [Bool.and_eq_true, decide_eq_true_eq, hinj]
      constructor
      · rintro ⟨hgt, he⟩
        refine ⟨hgt, fun hle => ?_⟩
        rw [← he]
        have : (if (g = true ∧ i ≤ pb.toNat) then i else 0) = i := if_pos ⟨hgt, hle⟩
        simp only [this]
        rw [List.getElem?_eq_getElem]
      · rintro ⟨hgt, he⟩
        refine ⟨hgt, ?_⟩
        have hx : plain[N - 1 - (if (g = true ∧ i ≤ pb.toNat) then i else 0)]? = some pb := by
          by_cases hle : i ≤ pb.toNat
          · rw [if_pos ⟨hgt, hle⟩]; exact he hle
          · rw [if_neg (fun h => hle h.2)]; exact hpb
        rw [List.getElem?_eq_some_iff] at hx
        exact hx.2
    rw [hgood]
    obtain ⟨q, hq1, hq2⟩ := ih (g && decide (i ≤ pb.toNat → plain[N - 1 - i]? = some pb))
      (fun h => hg (by simp only [Bool.and_eq_true] at h; exact h.1)) (fun j hj => hi j (by simp [hj]))
    refine ⟨q, hq1, hq2.trans ?_⟩
    simp only [Bool.and_eq_true, decide_eq_true_eq, List.mem_cons, forall_eq_or_imp]
    exact and_assoc

/-- What the completed loop says: the last `pad + 1` bytes all equal `pad`. -/
theorem pad_all_iff (plain : List Byte) (N : Nat) (pb : Byte) (hN : plain.length = N) (hp : pb.toNat + 1 ≤ N)
    (hpb : plain[N - 1]? = some pb) :
    (∀ i ∈ List.range' 1 255, i ≤ pb.toNat → plain[N - 1 - i]? = some pb) ↔
      plain.drop (N - (pb.toNat + 1)) = List.replicate (pb.toNat + 1) pb := by
  have hlt := pb.isLt
  constructor
  · intro h
    apply List.ext_getElem?
    intro j
    rw [List.getElem?_drop]
    by_cases hj : j < pb.toNat + 1
    · rw [List.getElem?_replicate_of_lt hj]
      by_cases h0 : j = pb.toNat
      · rw [← hpb]; congr 1; omega
      · have := h (pb.toNat - j) (by rw [List.mem_range']; exact ⟨pb.toNat - j - 1, by omega, by omega⟩) (by omega)
        rw [← this]; congr 1; omega
    · rw [List.getElem?_eq_none (by omega), List.getElem?_eq_none (by simp; omega)]
  · intro h i _ hi
    have := congrArg (fun l => l[pb.toNat - i]?) h
    simp only [List.getElem?_drop] at this
    rw [List.getElem?_replicate_of_lt (by omega)] at this
    rw [← this]; congr 1; omega

theorem absorb_spec (data : List Byte) (hlen : data.length < 2 ^ 32) (plainLen : BitVec 32) :
    ∀ (count i : Nat) (main ob : List Byte), i + count ≤ data.length →
      absorb data plainLen i count main ob =
        some (main ++ (data.drop i).take (min count (plainLen.toNat - i))) := by
  intro count
  induction count with
  | zero => intro i main ob _; simp [absorb]
  | succ c ih =>
    intro i main ob h
    have hi : i < data.length := by omega
    unfold absorb
    rw [List.getElem?_eq_getElem hi]
    simp only
    rw [ih _ _ _ (by omega), ctLt_spec, mask_bool (_ < _), ptrSelect_mask]
    rw [BitVec.toNat_ofNat, Nat.mod_eq_of_lt (by omega : i < 2 ^ 32)]
    by_cases hp : i < plainLen.toNat
    · simp only [hp, decide_true, if_true, List.append_assoc]
      congr 2
      have : min (c + 1) (plainLen.toNat - i) = min c (plainLen.toNat - (i + 1)) + 1 := by omega
      rw [this, List.drop_eq_getElem_cons hi, List.take_succ_cons]
      rfl
    · have h0 : plainLen.toNat - i = 0 := by omega
      have h1 : plainLen.toNat - (i + 1) = 0 := by omega
      simp [hp, h0, h1]

end Verif.Tls.Cbc
