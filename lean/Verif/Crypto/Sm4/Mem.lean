import Verif.Crypto.Sm4.Proof

namespace Verif.Crypto.Sm4

open Verif.Common

theorem drop_ge {a b : List Byte} {n : Nat} (h : a.length ≤ n) :
    (a ++ b).drop n = b.drop (n - a.length) := by
  rw [List.drop_append, List.drop_eq_nil_of_le h, List.nil_append]

/-- Block-by-block application of a block function to the first `16 * n` bytes. -/
def Spec.ecb (f : List Byte → Option (List Byte)) : Nat → List Byte → Option (List Byte)
  | 0, _ => some []
  | n + 1, l => do
    let o ← f (l.take 16)
    let r ← Spec.ecb f n (l.drop 16)
    some (o ++ r)

/-- The block function selected by `enc`. -/
def Spec.fn (rk : List (BitVec 32)) (enc : Bool) (l : List Byte) : Option (List Byte) :=
  if enc then Spec.encrypt rk l else Spec.decrypt rk l

theorem fn_some (rk : List (BitVec 32)) (enc : Bool) (l : List Byte) (h : l.length = 16) :
    ∃ o, Spec.fn rk enc l = some o ∧ o.length = 16 := by
  obtain ⟨q, h1, _⟩ := store_load l h
  cases enc
  · exact ⟨_, by simp [Spec.fn, Spec.decrypt, h1]; rfl, store_length _⟩
  · exact ⟨_, by simp [Spec.fn, Spec.encrypt, h1]; rfl, store_length _⟩

theorem ecb_some (rk : List (BitVec 32)) (enc : Bool) (n : Nat) (l : List Byte) (h : 16 * n ≤ l.length) :
    ∃ o, Spec.ecb (Spec.fn rk enc) n l = some o ∧ o.length = 16 * n := by
  induction n generalizing l with
  | zero => exact ⟨[], rfl, rfl⟩
  | succ n ih =>
    obtain ⟨o, h1, h2⟩ := fn_some rk enc (l.take 16) (by rw [List.length_take]; omega)
    obtain ⟨r, h3, h4⟩ := ih (l.drop 16) (by rw [List.length_drop]; omega)
    refine ⟨o ++ r, ?_, by rw [List.length_append]; omega⟩
    simp only [Spec.ecb, h1, h3, Option.bind_eq_bind, Option.bind_some]

/-- `ecb` looks only at the bytes of the blocks. -/
theorem ecb_take (f : List Byte → Option (List Byte)) (n : Nat) (l : List Byte) :
    Spec.ecb f n (l.take (16 * n)) = Spec.ecb f n l := by
  induction n generalizing l with
  | zero => rfl
  | succ n ih =>
    simp only [Spec.ecb]
    rw [List.take_take, Nat.min_eq_left (by omega), ← ih (l.drop 16), List.drop_take,
      show 16 * (n + 1) - 16 = 16 * n by omega]

theorem ecb_congr (f : List Byte → Option (List Byte)) (n : Nat) (l l' : List Byte)
    (h : l.take (16 * n) = l'.take (16 * n)) : Spec.ecb f n l = Spec.ecb f n l' := by
  rw [← ecb_take, h, ecb_take]

theorem blocks_eq (rk : List (BitVec 32)) (enc : Bool) (src dst : Nat) (hr : rk.length = 32)
    (n i : Nat) (mem : List Byte) (hs : src + 16 * i + 16 * n ≤ mem.length)
    (hd : dst + 16 * i + 16 * n ≤ mem.length)
    (ho : dst ≤ src ∨ src + 16 * i + 16 * n ≤ dst) :
    ∃ o, Spec.ecb (Spec.fn rk enc) n (mem.drop (src + 16 * i)) = some o ∧
      blocks rk enc src dst n i mem =
        some (mem.take (dst + 16 * i) ++ o ++ mem.drop (dst + 16 * i + 16 * n)) := by
  induction n generalizing i mem with
  | zero => exact ⟨[], rfl, by simp [blocks]⟩
  | succ n ih =>
    have hlen : ((mem.drop (src + 16 * i)).take 16).length = 16 := by
      rw [List.length_take, List.length_drop]; omega
    obtain ⟨o, h1, h2⟩ := fn_some rk enc _ hlen
    have hb : block (mem.drop (src + 16 * i)) rk enc = some o := by
      rw [block_eq _ _ _ (by rw [List.length_drop]; omega) hr]; exact h1
    have htl : (mem.take (dst + 16 * i)).length = dst + 16 * i := by rw [List.length_take]; omega
    generalize hm : mem.take (dst + 16 * i) ++ o ++ mem.drop (dst + 16 * i + 16) = m'
    have hml : m'.length = mem.length := by
      rw [← hm, List.length_append, List.length_append, htl, h2, List.length_drop]; omega
    obtain ⟨r, h3, h4⟩ := ih (i + 1) m' (by omega) (by omega) (by omega)
    have hcong : Spec.ecb (Spec.fn rk enc) n (m'.drop (src + 16 * (i + 1))) =
        Spec.ecb (Spec.fn rk enc) n (mem.drop (src + 16 * (i + 1))) := by
      apply ecb_congr
      rcases ho with ho | ho
      · rw [← hm, drop_ge]
        · rw [List.length_append, htl, h2, List.drop_drop]
          congr 2; omega
        · rw [List.length_append, htl, h2]; omega
      · rw [← hm, List.append_assoc, List.drop_append_of_le_length (by rw [htl]; omega),
          List.take_append_of_le_length (by rw [List.length_drop, htl]; omega)]
        rw [List.drop_take, List.take_take, Nat.min_eq_left (by omega)]
    refine ⟨o ++ r, ?_, ?_⟩
    · simp only [Spec.ecb, h1, Option.bind_eq_bind, Option.bind_some, List.drop_drop]
      rw [show src + 16 * i + 16 = src + 16 * (i + 1) by omega, ← hcong, h3]
      rfl
    · unfold blocks
      simp only [hb, Option.bind_eq_bind, Option.bind_some]
      rw [if_pos (by omega), hm, h4]
      have e1 : m'.take (dst + 16 * (i + 1)) = mem.take (dst + 16 * i) ++ o := by
        rw [← hm]
        have : dst + 16 * (i + 1) = (mem.take (dst + 16 * i) ++ o).length := by
          rw [List.length_append, htl, h2]; omega
        rw [this, List.take_left]
      have e2 : m'.drop (dst + 16 * (i + 1) + 16 * n) = mem.drop (dst + 16 * i + 16 * (n + 1)) := by
        rw [← hm, drop_ge (by rw [List.length_append, htl, h2]; omega),
          List.length_append, htl, h2, List.drop_drop]
        congr 1; omega
      rw [e1, e2]
      simp only [List.append_assoc]

theorem fn_inv (rk : List (BitVec 32)) (enc : Bool) (l o : List Byte) (hl : l.length = 16)
    (h : Spec.fn rk enc l = some o) : Spec.fn rk (!enc) o = some l := by
  cases enc
  · have := enc_dec rk l hl
    simp only [Spec.fn, Bool.false_eq_true, if_false] at h
    rw [h] at this; exact this
  · have := dec_enc rk l hl
    simp only [Spec.fn, if_true] at h
    rw [h] at this; exact this

theorem ecb_inv (rk : List (BitVec 32)) (enc : Bool) (n : Nat) (l o : List Byte) (x : List Byte)
    (hl : 16 * n ≤ l.length) (h : Spec.ecb (Spec.fn rk enc) n l = some o) :
    Spec.ecb (Spec.fn rk (!enc)) n (o ++ x) = some (l.take (16 * n)) := by
  induction n generalizing l o with
  | zero => simp [Spec.ecb]
  | succ n ih =>
    obtain ⟨a, h1, h2⟩ := fn_some rk enc (l.take 16) (by rw [List.length_take]; omega)
    obtain ⟨r, h3, h4⟩ := ecb_some rk enc n (l.drop 16) (by rw [List.length_drop]; omega)
    simp only [Spec.ecb, h1, h3, Option.bind_eq_bind, Option.bind_some, Option.some.injEq] at h
    subst h
    have e1 : (a ++ r ++ x).take 16 = a := by
      rw [List.append_assoc, ← h2, List.take_left]
    have e2 : (a ++ r ++ x).drop 16 = r ++ x := by
      rw [List.append_assoc, ← h2, List.drop_left]
    simp only [Spec.ecb, e1, e2]
    rw [fn_inv rk enc _ _ (by rw [List.length_take]; omega) h1,
      ih (l.drop 16) r (by rw [List.length_drop]; omega) h3]
    simp only [Option.bind_eq_bind, Option.bind_some]
    rw [show 16 * (n + 1) = 16 + 16 * n by omega, List.take_add]

end Verif.Crypto.Sm4
