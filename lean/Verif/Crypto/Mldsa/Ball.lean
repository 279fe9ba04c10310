import Verif.Crypto.Mldsa.Sample
import Mathlib.Data.Finset.Card
import Mathlib.Data.Nat.Bitwise
/-! SampleInBall. -/
namespace Verif.Crypto.Mldsa
open Verif.Crypto.Mlkem (Poly i32 u32 u8 upd)

namespace Spec
/-- Bit `t` of the first bytes of the stream, least significant bit first (BytesToBits). -/
def signBit (st : Nat → Nat) (t : Nat) : Bool := (st (t / 8)).testBit (t % 8)
/-- The polynomial of SampleInBall (FIPS 204, Algorithm 29) after `t` rounds, when round `t` reads its index from
position `pos t` of the stream: `c_i ← c_j; c_j ← (-1)^h`. -/
def ball (tau : Nat) (st pos : Nat → Nat) : Nat → Nat → Int
  | 0 => fun _ => 0
  | t + 1 => fun x =>
    if x = st (pos t) then (if signBit st t then -1 else 1)
    else if x = 256 - tau + t then ball tau st pos t (st (pos t))
    else ball tau st pos t x
/-- Where round `t` starts reading: after the eight sign bytes, then after the previous index. -/
def ballStart (pos : Nat → Nat) : Nat → Nat
  | 0 => 8
  | t + 1 => pos t + 1
/-- `pos` are the positions Algorithm 29 reads its indices from: in every round the first byte that is at most `i`. -/
def BallPos (tau : Nat) (st pos : Nat → Nat) (n : Nat) : Prop :=
  ∀ t, t < n → ballStart pos t ≤ pos t ∧ st (pos t) ≤ 256 - tau + t ∧
    ∀ m, ballStart pos t ≤ m → m < pos t → 256 - tau + t < st m
end Spec
open Spec

theorem ballPos_spec (st : Nat → Nat) (i fuel : Nat) : ∀ blk index j blk' index', index ≤ 136 →
    ballPos st i fuel blk index = some (j, blk', index') →
    ∃ m, 136 * blk + index ≤ m ∧ st m = j ∧ j ≤ i ∧ (∀ k, 136 * blk + index ≤ k → k < m → i < st k) ∧
      136 * blk' + index' = m + 1 ∧ index' ≤ 136 := by
  induction fuel with
  | zero => intro blk index j blk' index' _ h; simp [ballPos] at h
  | succ n ih =>
    intro blk index j blk' index' hi h
    unfold ballPos at h
    obtain ⟨b, x, hbx, e⟩ : ∃ b x, (if index = 136 then (blk + 1, 0) else (blk, index)) = (b, x) ∧
        136 * b + x = 136 * blk + index ∧ x < 136 := by
      by_cases hc : index = 136
      · exact ⟨blk + 1, 0, if_pos hc, by omega⟩
      · exact ⟨blk, index, if_neg hc, by omega⟩
    rw [hbx] at h
    simp only at h
    by_cases hj : st (136 * b + x) > i
    · rw [if_pos hj] at h
      obtain ⟨m, h1, h2, h3, h4, h5⟩ := ih b (x + 1) j blk' index' (by omega) h
      refine ⟨m, by omega, h2, h3, fun k hk hkm => ?_, h5⟩
      by_cases hk2 : k = 136 * b + x
      · rw [hk2]; exact hj
      · exact h4 k (by omega) hkm
    · rw [if_neg hj] at h
      simp only [Option.some.injEq, Prod.mk.injEq] at h
      obtain ⟨rfl, rfl, rfl⟩ := h
      exact ⟨136 * b + x, by omega, rfl, by omega, fun k hk hkm => by omega, by omega, by omega⟩

theorem ball_congr (tau : Nat) (st p q : Nat → Nat) (n : Nat) (h : ∀ t, t < n → p t = q t) : ball tau st p n = ball tau st q n := by
  induction n with
  | zero => rfl
  | succ n ih =>
    funext x
    unfold ball
    rw [h n (by omega), ih (fun t ht => h t (by omega))]

theorem start_congr (p q : Nat → Nat) (n t : Nat) (ht : t ≤ n) (h : ∀ t, t < n → p t = q t) : ballStart p t = ballStart q t := by
  cases t with
  | zero => rfl
  | succ t => show p t + 1 = q t + 1; rw [h t (by omega)]

theorem signs_bit (st : Nat → Nat) (hst : ∀ n, st n < 256) (n k : Nat) :
    (ballSigns st n).testBit k = (decide (k < 8 * n) && signBit st k) := by
  induction n with
  | zero => simp [ballSigns]
  | succ n ih =>
    unfold ballSigns
    rw [Nat.testBit_or, ih, Nat.testBit_shiftLeft]
    unfold signBit
    by_cases h1 : k < 8 * n
    · simp only [h1, show ¬ k ≥ 8 * n by omega, show k < 8 * (n + 1) by omega, decide_true, decide_false, Bool.true_and,
        Bool.false_and, Bool.or_false]
    · by_cases h2 : k < 8 * (n + 1)
      · simp only [h1, show k ≥ 8 * n by omega, h2, decide_true, decide_false, Bool.true_and, Bool.false_and, Bool.false_or]
        rw [show k / 8 = n by omega, show k % 8 = k - 8 * n by omega]
      · simp only [h1, show k ≥ 8 * n by omega, h2, decide_true, decide_false, Bool.true_and, Bool.false_and, Bool.false_or]
        exact Nat.testBit_lt_two_pow (lt_of_lt_of_le (hst n) (by
          rw [show (256 : Nat) = 2 ^ 8 by norm_num]; exact Nat.pow_le_pow_right (by decide) (by omega)))

theorem ballLoop_spec (st : Nat → Nat) (hst : ∀ n, st n < 256) (fuel tau : Nat) (n : Nat) (hn : n ≤ 64) (s : Ball)
    (h : ballLoop st fuel (256 - tau) ⟨zeroPoly, ballSigns st 8, 0, 8⟩ n = some s) :
    ∃ pos, BallPos tau st pos n ∧ s.c = ball tau st pos n ∧ s.h = ballSigns st 8 >>> n ∧
      136 * s.blk + s.index = ballStart pos n ∧ s.index ≤ 136 := by
  induction n generalizing s with
  | zero =>
    simp only [ballLoop, Option.some.injEq] at h
    subst h
    exact ⟨fun _ => 0, fun t ht => absurd ht (by omega), rfl, rfl, rfl, show (8 : Nat) ≤ 136 by decide⟩
  | succ n ih =>
    unfold ballLoop at h
    generalize hl : ballLoop st fuel (256 - tau) ⟨zeroPoly, ballSigns st 8, 0, 8⟩ n = o at h
    cases o with
    | none => simp at h
    | some s0 =>
      obtain ⟨pos, hp, hc, hh, hs, hi⟩ := ih (by omega) s0 hl
      simp only at h
      unfold ballStep at h
      generalize hb : ballPos st (256 - tau + n) fuel s0.blk s0.index = o at h
      match o with
      | none => simp at h
      | some (j, blk', index') =>
        obtain ⟨m, h1, h2, h3, h4, h5, h6⟩ := ballPos_spec st _ fuel _ _ _ _ _ hi hb
        simp only [Option.some.injEq] at h
        subst h
        let pos' : Nat → Nat := fun t => if t = n then m else pos t
        have hpp : ∀ t, t < n → pos' t = pos t := fun t ht => if_neg (by omega)
        have hpn : pos' n = m := if_pos rfl
        refine ⟨pos', fun t ht => ?_, ?_, ?_, ?_, h6⟩
        · rw [start_congr pos' pos n t (by omega) hpp]
          by_cases htn : t = n
          · subst htn
            rw [hpn, ← hs, h2]
            exact ⟨h1, h3, h4⟩
          · rw [hpp t (by omega)]; exact hp t (by omega)
        · funext x
          have hbit : (1 - 2 * ((s0.h &&& 1 : Nat) : Int)) = if signBit st n then -1 else 1 := by
            rw [hh, Nat.and_one_is_mod]
            have := signs_bit st hst 8 n
            rw [show decide (n < 8 * 8) = true by simp; omega, Bool.true_and, Nat.testBit_eq_decide_div_mod_eq] at this
            rw [Nat.shiftRight_eq_div_pow]
            by_cases hd : ballSigns st 8 / 2 ^ n % 2 = 1
            · rw [← this, hd]; simp
            · rw [← this, show ballSigns st 8 / 2 ^ n % 2 = 0 by omega]; simp
          unfold ball
          rw [hpn, h2, ball_congr tau st pos' pos n hpp, ← hc]
          unfold upd
          simp only [hbit]
        · rw [hh, Nat.shiftRight_add]
        · show 136 * blk' + index' = pos' n + 1
          rw [hpn, h5]

/-- `c` is the result of SampleInBall on the stream: the positions exist and `c` is the polynomial they give. -/
def Spec.IsBall (tau : Nat) (st : Nat → Nat) (c : Nat → Int) : Prop := ∃ pos, Spec.BallPos tau st pos tau ∧ c = Spec.ball tau st pos tau

theorem card_step (f : Nat → Int) (i j : Nat) (v : Int) (hv : v ≠ 0) (hj : j ≤ i) (hi : i < 256) (h0 : f i = 0) :
    ((Finset.range 256).filter (fun x => (if x = j then v else if x = i then f j else f x) ≠ 0)).card =
      ((Finset.range 256).filter (fun x => f x ≠ 0)).card + 1 := by
  by_cases hz : f j = 0
  · have e : (Finset.range 256).filter (fun x => (if x = j then v else if x = i then f j else f x) ≠ 0) =
        insert j ((Finset.range 256).filter (fun x => f x ≠ 0)) := by
      ext x
      simp only [Finset.mem_filter, Finset.mem_insert, Finset.mem_range]
      by_cases hx : x = j
      · subst hx
        rw [if_pos rfl]
        exact ⟨fun _ => Or.inl rfl, fun _ => ⟨by omega, hv⟩⟩
      · rw [if_neg hx]
        by_cases hx2 : x = i
        · subst hx2
          rw [if_pos rfl]
          simp [hz, h0, hx]
        · rw [if_neg hx2]; simp [hx]
    rw [e, Finset.card_insert_of_notMem (by simp [hz])]
  · have hji : j ≠ i := fun h => hz (by rw [h, h0])
    have e : (Finset.range 256).filter (fun x => (if x = j then v else if x = i then f j else f x) ≠ 0) =
        insert i ((Finset.range 256).filter (fun x => f x ≠ 0)) := by
      ext x
      simp only [Finset.mem_filter, Finset.mem_insert, Finset.mem_range]
      by_cases hx : x = j
      · subst hx
        rw [if_pos rfl]
        exact ⟨fun h => Or.inr ⟨h.1, hz⟩, fun _ => ⟨by omega, hv⟩⟩
      · rw [if_neg hx]
        by_cases hx2 : x = i
        · subst hx2
          rw [if_pos rfl]
          exact ⟨fun _ => Or.inl rfl, fun _ => ⟨hi, hz⟩⟩
        · rw [if_neg hx2]; simp [hx2]
    rw [e, Finset.card_insert_of_notMem (by simp [h0])]

theorem ball_succ (tau : Nat) (st pos : Nat → Nat) (n x : Nat) : ball tau st pos (n + 1) x =
    if x = st (pos n) then (if signBit st n then -1 else 1)
    else if x = 256 - tau + n then ball tau st pos n (st (pos n)) else ball tau st pos n x := rfl

theorem ball_shape (tau : Nat) (ht : tau ≤ 256) (st pos : Nat → Nat) (n : Nat) (hn : n ≤ tau) (hp : BallPos tau st pos n) :
    (∀ x, ball tau st pos n x = 0 ∨ ball tau st pos n x = 1 ∨ ball tau st pos n x = -1) ∧
    (∀ x, 256 - tau + n ≤ x → ball tau st pos n x = 0) ∧
    ((Finset.range 256).filter (fun x => ball tau st pos n x ≠ 0)).card = n := by
  induction n with
  | zero => exact ⟨fun x => Or.inl rfl, fun x _ => rfl, by simp [ball]⟩
  | succ n ih =>
    obtain ⟨h1, h2, h3⟩ := ih (by omega) (fun t h => hp t (by omega))
    have hj := (hp n (by omega)).2.1
    have hi0 := h2 (256 - tau + n) (by omega)
    refine ⟨fun x => ?_, fun x hx => ?_, ?_⟩
    · rw [ball_succ]
      split
      · split <;> simp
      · split
        · exact h1 _
        · exact h1 _
    · rw [ball_succ, if_neg (by omega), if_neg (by omega)]
      exact h2 x (by omega)
    · have hne : ∀ b : Bool, (if b = true then (-1 : Int) else 1) ≠ 0 := by decide
      have := card_step (ball tau st pos n) (256 - tau + n) (st (pos n)) (if signBit st n then -1 else 1) (hne _) hj (by omega) hi0
      rw [h3] at this
      exact this

theorem sampleInBall_spec {P : Prims} (hP : ∀ m n, P.shake256 m n < 256) {p : Params} (ht : p.tau ≤ 64) {fuel : Nat}
    {seed : List Nat} {c : Poly} (h : sampleInBall P p fuel seed = some c) : Spec.IsBall p.tau (P.shake256 seed) c := by
  unfold sampleInBall at h
  simp only at h
  generalize hl : ballLoop (P.shake256 seed) fuel (256 - p.tau) ⟨zeroPoly, ballSigns (P.shake256 seed) 8, 0, 8⟩ p.tau = o at h
  cases o with
  | none => simp at h
  | some s =>
    simp only [Option.some.injEq] at h
    obtain ⟨pos, h1, h2, _⟩ := ballLoop_spec _ (hP seed) fuel p.tau p.tau ht s hl
    exact ⟨pos, h1, by rw [← h, h2]⟩

theorem isBall_range {tau : Nat} (ht : tau ≤ 256) {st : Nat → Nat} {c : Nat → Int} (h : Spec.IsBall tau st c) (x : Nat) : |c x| ≤ 1 := by
  obtain ⟨pos, h1, rfl⟩ := h
  rcases (ball_shape tau ht st pos tau (le_refl _) h1).1 x with h | h | h <;> rw [h] <;> decide

end Verif.Crypto.Mldsa
