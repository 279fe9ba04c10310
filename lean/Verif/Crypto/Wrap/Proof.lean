import Verif.Crypto.Wrap.Model
import Verif.Crypto.Wrap.Spec
import Verif.Bsl.Bytes.Props
import Mathlib.Tactic.Ring
import Mathlib.Data.List.Induction
import Mathlib.Tactic.Linarith
namespace Verif.Crypto.Wrap
open Verif.Common Verif.Crypto.Modes

/-! ### memory -/

theorem rd_mid {pre r post : List Byte} {n o : Nat} (hn : r.length = n) (ho : o = pre.length) :
    rd (pre ++ (r ++ post)) o n = some r := by
  subst ho
  rw [rd, if_pos (by simp; omega), List.drop_left' rfl, List.take_left' hn]

theorem wr_mid {pre r d post : List Byte} {o : Nat} (hd : d.length = r.length) (ho : o = pre.length) :
    wr (pre ++ (r ++ post)) o d = some (pre ++ (d ++ post)) := by
  subst ho
  rw [wr, if_pos (by simp; omega), List.take_left' rfl]
  congr 3
  rw [← List.append_assoc, List.drop_left' (by simp; omega)]

theorem wr_at {m d : List Byte} {o : Nat} (h : o + d.length ≤ m.length) :
    wr m o d = some (m.take o ++ (d ++ m.drop (o + d.length))) := by
  rw [wr, if_pos h]

/-! ### the counter -/

theorem xor_zero (a : List Byte) : ∀ n, a.length = n → Spec.xor a (List.replicate n 0#8) = a := by
  induction a with
  | nil => intro n h; simp [Spec.xor]
  | cons x a ih =>
    intro n h
    cases n with
    | zero => simp at h
    | succ n =>
      have := ih n (by simpa using h)
      rw [Spec.xor] at this ⊢
      rw [List.replicate_succ, List.zipWith_cons_cons, this, BitVec.xor_zero]

theorem beBytes_succ (k n : Nat) : beBytes (k + 1) n = beBytes k (n / 256) ++ [BitVec.ofNat 8 n] := rfl

theorem beBytes8 (v : Nat) (hv : v < 2 ^ 32) : beBytes 8 v = [0#8, 0#8, 0#8, 0#8, BitVec.ofNat 8 (v / 2 ^ 24),
    BitVec.ofNat 8 (v / 2 ^ 16), BitVec.ofNat 8 (v / 2 ^ 8), BitVec.ofNat 8 v] := by
  simp only [beBytes_succ, Nat.div_div_eq_div_mul]
  have : v / (256 * 256 * 256 * 256) = 0 := Nat.div_eq_of_lt (by omega)
  have h5 : v / (256 * 256 * 256 * 256 * 256) = 0 := Nat.div_eq_of_lt (by omega)
  have h6 : v / (256 * 256 * 256 * 256 * 256 * 256) = 0 := Nat.div_eq_of_lt (by omega)
  have h7 : v / (256 * 256 * 256 * 256 * 256 * 256 * 256) = 0 := Nat.div_eq_of_lt (by omega)
  rw [this, h5, h6, h7]
  simp [beBytes]

theorem beBytes4 (v : Nat) : beBytes 4 v = [BitVec.ofNat 8 (v / 2 ^ 24),
    BitVec.ofNat 8 (v / 2 ^ 16), BitVec.ofNat 8 (v / 2 ^ 8), BitVec.ofNat 8 v] := by
  simp only [beBytes_succ, Nat.div_div_eq_div_mul]
  simp [beBytes]

theorem byte_mask (v : BitVec 32) (s : Nat) :
    ((v >>> s) &&& 0xff#32).setWidth 8 = BitVec.ofNat 8 (v.toNat / 2 ^ s) := by
  apply BitVec.eq_of_toNat_eq
  rw [BitVec.toNat_setWidth, BitVec.toNat_and, BitVec.toNat_ushiftRight, Nat.shiftRight_eq_div_pow,
    show (0xff#32).toNat = 2 ^ 8 - 1 from rfl, Nat.and_two_pow_sub_one_eq_mod, BitVec.toNat_ofNat]
  omega

theorem dataBytesXor_spec {a : List Byte} (ha : a.length = 8) {v : Nat} (hv : v < 2 ^ 32) :
    dataBytesXor a (BitVec.ofNat 32 v) = Spec.xor a (beBytes 8 v) := by
  match a, ha with
  | [a0, a1, a2, a3, a4, a5, a6, a7], _ =>
    have h0 := byte_mask (BitVec.ofNat 32 v) 0
    have h8 := byte_mask (BitVec.ofNat 32 v) 8
    have h16 := byte_mask (BitVec.ofNat 32 v) 16
    have h24 := byte_mask (BitVec.ofNat 32 v) 24
    rw [BitVec.toNat_ofNat, Nat.mod_eq_of_lt hv] at h0 h8 h16 h24
    rw [BitVec.ushiftRight_zero, Nat.pow_zero, Nat.div_one] at h0
    rw [beBytes8 v hv, dataBytesXor]
    dsimp only
    rw [h0, h8, h16, h24]
    by_cases hc : (BitVec.ofNat 8 v).setWidth 32 = BitVec.ofNat 32 v
    · rw [if_pos hc]
      have hv2 : v < 256 := by
        have := congrArg BitVec.toNat hc
        rw [BitVec.toNat_setWidth, BitVec.toNat_ofNat, BitVec.toNat_ofNat] at this
        omega
      rw [show v / 2 ^ 24 = 0 from Nat.div_eq_of_lt (by omega), show v / 2 ^ 16 = 0 from
        Nat.div_eq_of_lt (by omega), show v / 2 ^ 8 = 0 from Nat.div_eq_of_lt (by omega)]
      simp [Spec.xor, List.modify_succ_cons]
    · rw [if_neg hc]
      simp [Spec.xor, List.modify_succ_cons]

theorem xor_length {a b : List Byte} {n : Nat} (ha : a.length = n) (hb : b.length = n) :
    (Spec.xor a b).length = n := by
  rw [Spec.xor, List.length_zipWith, ha, hb, Nat.min_self]

theorem beBytes_length (k n : Nat) : (beBytes k n).length = k := by
  induction k generalizing n with
  | zero => rfl
  | succ k ih => rw [beBytes_succ, List.length_append, ih]; rfl

theorem xor_xor : ∀ {a b : List Byte}, a.length = b.length → Spec.xor (Spec.xor a b) b = a
  | [], [], _ => rfl
  | x :: a, y :: b, h => by
    have := xor_xor (a := a) (b := b) (by simpa using h)
    rw [Spec.xor, Spec.xor] at this ⊢
    rw [List.zipWith_cons_cons, List.zipWith_cons_cons, this, BitVec.xor_assoc, BitVec.xor_self,
      BitVec.xor_zero]

/-! ### one pass -/

def Blk (r : List (List Byte)) : Prop := ∀ x ∈ r, x.length = 8

theorem flat_length {r : List (List Byte)} (h : Blk r) : r.flatten.length = 8 * r.length := by
  induction r with
  | nil => rfl
  | cons x r ih =>
    rw [List.flatten_cons, List.length_append, ih (fun y hy => h y (by simp [hy])), h x (by simp),
      List.length_cons]; ring

theorem half {b : List Byte} (h : b.length = 16) : (b.take 8).length = 8 ∧ (b.drop 8).length = 8 := by
  constructor <;> simp [h]

theorem pass_len (C : Cipher) : ∀ (r : List (List Byte)) (a : List Byte) (t : Nat), a.length = 8 → Blk r →
    (Spec.pass C.enc a t r).1.length = 8 ∧ Blk (Spec.pass C.enc a t r).2 ∧
      (Spec.pass C.enc a t r).2.length = r.length
  | [], a, t, ha, _ => ⟨ha, by simp [Spec.pass, Blk], rfl⟩
  | x :: r, a, t, ha, hr => by
    have hb : (C.enc (a ++ x)).length = 16 := C.encLen _ (by simp [ha, hr x (by simp)])
    have ih := pass_len C r (Spec.xor ((C.enc (a ++ x)).take 8) (beBytes 8 t)) (t + 1)
      (xor_length (half hb).1 (beBytes_length _ _)) (fun y hy => hr y (by simp [hy]))
    refine ⟨ih.1, ?_, by simp [Spec.pass, ih.2.2]⟩
    intro y hy
    rw [Spec.pass] at hy
    rcases List.mem_cons.mp hy with rfl | hy
    · exact (half hb).2
    · exact ih.2.1 y hy

theorem encPass_spec (C : Cipher) : ∀ (r : List (List Byte)) (a : List Byte) (t : Nat) (pre post : List Byte),
    a.length = 8 → Blk r → t + r.length < 2 ^ 32 →
    encPass C r.length pre.length (BitVec.ofNat 32 t) a (pre ++ (r.flatten ++ post)) =
      some (BitVec.ofNat 32 (t + r.length), (Spec.pass C.enc a t r).1,
        pre ++ ((Spec.pass C.enc a t r).2.flatten ++ post))
  | [], a, t, pre, post, _, _, _ => by simp [encPass, Spec.pass]
  | x :: r, a, t, pre, post, ha, hr, ht => by
    have hx : x.length = 8 := hr x (by simp)
    have hb : (C.enc (a ++ x)).length = 16 := C.encLen _ (by simp [ha, hx])
    have ih := encPass_spec C r (Spec.xor ((C.enc (a ++ x)).take 8) (beBytes 8 t)) (t + 1)
      (pre ++ (C.enc (a ++ x)).drop 8) post
      (xor_length (half hb).1 (beBytes_length _ _)) (fun y hy => hr y (by simp [hy]))
      (by simp at ht; omega)
    rw [List.length_cons, encPass, List.flatten_cons, List.append_assoc, rd_mid hx rfl]
    simp only [Option.bind_eq_bind, Option.bind_some]
    rw [wr_mid (by rw [(half hb).2, hx]) rfl, dataBytesXor_spec (half hb).1 (by omega)]
    simp only [Option.bind_some]
    rw [show pre.length + 8 = (pre ++ (C.enc (a ++ x)).drop 8).length by
        rw [List.length_append, (half hb).2],
      show BitVec.ofNat 32 t + 1#32 = BitVec.ofNat 32 (t + 1) by rw [BitVec.ofNat_add],
      ← List.append_assoc, ih, Spec.pass]
    simp only [List.flatten_cons, List.append_assoc]
    congr 2
    rw [show t + 1 + r.length = t + (r.length + 1) by ring]

theorem pass_snoc (E : List Byte → List Byte) : ∀ (r : List (List Byte)) (x a : List Byte) (t : Nat),
    Spec.pass E a t (r ++ [x]) =
      (Spec.xor ((E ((Spec.pass E a t r).1 ++ x)).take 8) (beBytes 8 (t + r.length)),
        (Spec.pass E a t r).2 ++ [(E ((Spec.pass E a t r).1 ++ x)).drop 8])
  | [], x, a, t => by simp [Spec.pass]
  | y :: r, x, a, t => by
    rw [List.cons_append, Spec.pass, Spec.pass, pass_snoc E r x]
    simp only [List.cons_append, List.length_cons]
    rw [show t + 1 + r.length = t + (r.length + 1) by ring]

theorem decPass_spec (C : Cipher) : ∀ (r : List (List Byte)) (a : List Byte) (t : Nat) (pre post : List Byte),
    a.length = 8 → Blk r → t + r.length < 2 ^ 32 →
    ∃ a' r', a'.length = 8 ∧ Blk r' ∧ r'.length = r.length ∧
      decPass C r.length (pre.length + 8 * r.length - 8) (BitVec.ofNat 32 (t + r.length)) a
        (pre ++ (r.flatten ++ post)) = some (BitVec.ofNat 32 t, a', pre ++ (r'.flatten ++ post)) ∧
      Spec.pass C.enc a' (t + 1) r' = (a, r) := by
  intro r
  induction r using List.reverseRecOn with
  | nil => intro a t pre post ha _ _; exact ⟨a, [], ha, by simp [Blk], rfl, by simp [decPass], rfl⟩
  | append_singleton r x ih =>
    intro a t pre post ha hr ht
    have hx : x.length = 8 := hr x (by simp)
    have hr' : Blk r := fun y hy => hr y (by simp [hy])
    rw [List.length_append, List.length_singleton] at ht ⊢
    have hxl : (Spec.xor a (beBytes 8 (t + (r.length + 1)))).length = 8 :=
      xor_length ha (beBytes_length _ _)
    have hl16 : (Spec.xor a (beBytes 8 (t + (r.length + 1))) ++ x).length = 16 := by
      rw [List.length_append, hxl, hx]
    have hb := C.decLen _ hl16
    obtain ⟨a', r', h1, h2, h3, h4, h5⟩ := ih
      ((C.dec (Spec.xor a (beBytes 8 (t + (r.length + 1))) ++ x)).take 8) t pre
      ((C.dec (Spec.xor a (beBytes 8 (t + (r.length + 1))) ++ x)).drop 8 ++ post) (half hb).1 hr' (by omega)
    refine ⟨a', r' ++ [(C.dec (Spec.xor a (beBytes 8 (t + (r.length + 1))) ++ x)).drop 8], h1, ?_,
      by simp [h3], ?_, ?_⟩
    · intro y hy
      rcases List.mem_append.mp hy with hy | hy
      · exact h2 y hy
      · rw [List.mem_singleton.mp hy]; exact (half hb).2
    · rw [decPass, dataBytesXor_spec ha (by omega)]
      have e : pre ++ ((r ++ [x]).flatten ++ post) = (pre ++ r.flatten) ++ (x ++ post) := by simp
      have ho : pre.length + 8 * (r.length + 1) - 8 = (pre ++ r.flatten).length := by
        rw [List.length_append, flat_length hr']; omega
      rw [e, ho, rd_mid hx rfl]
      simp only [Option.bind_eq_bind, Option.bind_some]
      rw [wr_mid (by rw [(half hb).2, hx]) rfl]
      simp only [Option.bind_some]
      rw [show BitVec.ofNat 32 (t + (r.length + 1)) - 1#32 = BitVec.ofNat 32 (t + r.length) by
          rw [show t + (r.length + 1) = (t + r.length) + 1 by ring, BitVec.ofNat_add,
            BitVec.add_sub_cancel],
        show (pre ++ r.flatten).length - 8 = pre.length + 8 * r.length - 8 by
          rw [List.length_append, flat_length hr'], List.append_assoc, h4]
      simp
    · rw [pass_snoc, h5]
      dsimp only
      rw [List.take_append_drop, C.inv' _ hl16, List.take_left' hxl, List.drop_left' hxl, h3,
        show t + 1 + r.length = t + (r.length + 1) by ring,
        xor_xor (by rw [ha, beBytes_length])]

theorem pass_inj (C : Cipher) : ∀ (r r' : List (List Byte)) (a a' : List Byte) (t : Nat),
    a.length = 8 → a'.length = 8 → Blk r → Blk r' → r.length = r'.length →
    Spec.pass C.enc a t r = Spec.pass C.enc a' t r' → a = a' ∧ r = r'
  | [], [], a, a', t, _, _, _, _, _, h => by simp [Spec.pass] at h; exact ⟨h, rfl⟩
  | x :: r, x' :: r', a, a', t, ha, ha', hr, hr', hl, h => by
    have hx : x.length = 8 := hr x (by simp)
    have hx' : x'.length = 8 := hr' x' (by simp)
    have l1 : (a ++ x).length = 16 := by simp [ha, hx]
    have l2 : (a' ++ x').length = 16 := by simp [ha', hx']
    have hb : (C.enc (a ++ x)).length = 16 := C.encLen _ l1
    have hb' : (C.enc (a' ++ x')).length = 16 := C.encLen _ l2
    rw [Spec.pass, Spec.pass] at h
    simp only [Prod.mk.injEq, List.cons.injEq] at h
    obtain ⟨h1, h2, h3⟩ := h
    obtain ⟨e1, e2⟩ := pass_inj C r r' _ _ (t + 1) (xor_length (half hb).1 (beBytes_length _ _))
      (xor_length (half hb').1 (beBytes_length _ _)) (fun y hy => hr y (by simp [hy]))
      (fun y hy => hr' y (by simp [hy])) (by simpa using hl) (Prod.ext h1 h3)
    have e3 : (C.enc (a ++ x)).take 8 = (C.enc (a' ++ x')).take 8 := by
      have := congrArg (fun l => Spec.xor l (beBytes 8 t)) e1
      rwa [xor_xor (by rw [(half hb).1, beBytes_length]), xor_xor (by rw [(half hb').1, beBytes_length])] at this
    have e4 : C.enc (a ++ x) = C.enc (a' ++ x') := by
      rw [← List.take_append_drop 8 (C.enc (a ++ x)), e3, h2, List.take_append_drop]
    have e5 : a ++ x = a' ++ x' := by rw [← C.inv _ l1, e4, C.inv _ l2]
    obtain ⟨rfl, rfl⟩ := List.append_inj e5 (by rw [ha, ha'])
    exact ⟨rfl, by rw [e2]⟩

/-! ### the six passes -/

/-- `k` passes starting with step number `t + 1`, for `n` blocks. -/
def rnds (E : List Byte → List Byte) (n : Nat) : Nat → Nat → List Byte × List (List Byte) →
    List Byte × List (List Byte)
  | 0, _, s => s
  | k + 1, t, s => rnds E n k (t + n) (Spec.pass E s.1 (t + 1) s.2)

theorem rounds_eq (E : List Byte → List Byte) (a : List Byte) (r : List (List Byte)) :
    Spec.rounds E a r = rnds E r.length 6 0 (a, r) := by
  rw [Spec.rounds, show List.range 6 = [0, 1, 2, 3, 4, 5] from rfl]
  simp only [List.foldl_cons, List.foldl_nil, rnds]
  have e : ∀ k, r.length * k + 1 = r.length * k + 1 := fun _ => rfl
  rw [show r.length * 0 + 1 = 0 + 1 by ring, show r.length * 1 + 1 = 0 + r.length + 1 by ring,
    show r.length * 2 + 1 = 0 + r.length + r.length + 1 by ring,
    show r.length * 3 + 1 = 0 + r.length + r.length + r.length + 1 by ring,
    show r.length * 4 + 1 = 0 + r.length + r.length + r.length + r.length + 1 by ring,
    show r.length * 5 + 1 = 0 + r.length + r.length + r.length + r.length + r.length + 1 by ring]

theorem rnds_snoc (E : List Byte → List Byte) (n : Nat) : ∀ k t s,
    rnds E n (k + 1) t s = Spec.pass E (rnds E n k t s).1 (t + k * n + 1) (rnds E n k t s).2
  | 0, t, s => by simp [rnds]
  | k + 1, t, s => by
    rw [rnds, rnds_snoc E n k, rnds]
    rw [show t + n + k * n + 1 = t + (k + 1) * n + 1 by ring]

theorem rnds_len (C : Cipher) {n : Nat} : ∀ k t (s : List Byte × List (List Byte)), s.1.length = 8 → Blk s.2 →
    s.2.length = n → (rnds C.enc n k t s).1.length = 8 ∧ Blk (rnds C.enc n k t s).2 ∧
      (rnds C.enc n k t s).2.length = n
  | 0, t, s, h1, h2, h3 => ⟨h1, h2, h3⟩
  | k + 1, t, s, h1, h2, h3 => by
    obtain ⟨p1, p2, p3⟩ := pass_len C s.2 s.1 (t + 1) h1 h2
    exact rnds_len C k (t + n) _ p1 p2 (by rw [p3, h3])

theorem encRounds_spec (C : Cipher) {n : Nat} : ∀ k t (s : List Byte × List (List Byte)) (pre post : List Byte),
    pre.length = 8 → s.1.length = 8 → Blk s.2 → s.2.length = n → t + k * n + 1 < 2 ^ 32 →
    encRounds C (8 * n) k (BitVec.ofNat 32 (t + 1)) s.1 (pre ++ (s.2.flatten ++ post)) =
      some (BitVec.ofNat 32 (t + k * n + 1), (rnds C.enc n k t s).1,
        pre ++ ((rnds C.enc n k t s).2.flatten ++ post))
  | 0, t, s, pre, post, _, _, _, _, _ => by simp [encRounds, rnds]
  | k + 1, t, s, pre, post, hp, h1, h2, h3, ht => by
    obtain ⟨p1, p2, p3⟩ := pass_len C s.2 s.1 (t + 1) h1 h2
    have hm : (k + 1) * n = k * n + n := by ring
    have h := encPass_spec C s.2 s.1 (t + 1) pre post h1 h2 (by omega)
    rw [h3, hp] at h
    rw [encRounds, show (8 * n + 7) / 8 = n by omega, h]
    simp only [Option.bind_eq_bind, Option.bind_some]
    have ih := encRounds_spec C k (t + n) (Spec.pass C.enc s.1 (t + 1) s.2) pre post hp p1 p2
      (by rw [p3, h3]) (by omega)
    rw [show t + 1 + n = t + n + 1 by ring, ih, rnds, show t + n + k * n + 1 = t + (k + 1) * n + 1 by ring]

theorem decRounds_spec (C : Cipher) {n : Nat} : ∀ k (a : List Byte) (r : List (List Byte)) (post : List Byte),
    a.length = 8 → Blk r → r.length = n → k * n < 2 ^ 32 →
    ∃ a' r', a'.length = 8 ∧ Blk r' ∧ r'.length = n ∧
      decRounds C (8 * n) k (BitVec.ofNat 32 (k * n)) a (r.flatten ++ post) =
        some (0#32, a', r'.flatten ++ post) ∧
      rnds C.enc n k 0 (a', r') = (a, r)
  | 0, a, r, post, h1, h2, h3, _ => ⟨a, r, h1, h2, h3, by simp [decRounds], rfl⟩
  | k + 1, a, r, post, h1, h2, h3, ht => by
    have hm : (k + 1) * n = k * n + n := by ring
    obtain ⟨a1, r1, p1, p2, p3, p4, p5⟩ := decPass_spec C r a (k * n) [] post h1 h2 (by omega)
    obtain ⟨a2, r2, q1, q2, q3, q4, q5⟩ := decRounds_spec C k a1 r1 post p1 p2 (by rw [p3, h3]) (by omega)
    refine ⟨a2, r2, q1, q2, q3, ?_, ?_⟩
    · rw [decRounds, show (8 * n + 7) / 8 = n by omega, hm]
      simp only [List.nil_append, List.length_nil, Nat.zero_add, h3] at p4
      rw [p4]
      simp only [Option.bind_eq_bind, Option.bind_some]
      exact q4
    · rw [rnds_snoc, q5, Nat.zero_add, p5]

theorem rnds_inj (C : Cipher) {n : Nat} : ∀ k t (s s' : List Byte × List (List Byte)), s.1.length = 8 → Blk s.2 →
    s.2.length = n → s'.1.length = 8 → Blk s'.2 → s'.2.length = n →
    rnds C.enc n k t s = rnds C.enc n k t s' → s = s'
  | 0, _, _, _, _, _, _, _, _, _, h => h
  | k + 1, t, s, s', h1, h2, h3, g1, g2, g3, h => by
    obtain ⟨p1, p2, p3⟩ := pass_len C s.2 s.1 (t + 1) h1 h2
    obtain ⟨q1, q2, q3⟩ := pass_len C s'.2 s'.1 (t + 1) g1 g2
    have := rnds_inj C k (t + n) _ _ p1 p2 (by rw [p3, h3]) q1 q2 (by rw [q3, g3]) h
    obtain ⟨e1, e2⟩ := pass_inj C s.2 s'.2 s.1 s'.1 (t + 1) h1 g1 h2 g2 (by rw [h3, g3]) this
    exact Prod.ext e1 e2

/-! ### blocks -/

theorem blocks_cons {x p : List Byte} (hx : x.length = 8) : Spec.blocks (x ++ p) = x :: Spec.blocks p := by
  rw [Spec.blocks, List.length_append, hx, show (8 + p.length) / 8 = p.length / 8 + 1 by omega,
    List.range_succ_eq_map, List.map_cons, List.map_map, Spec.blocks]
  congr 1
  · rw [Nat.mul_zero, List.drop_zero, List.take_left' hx]
  · apply List.map_congr_left
    intro i _
    rw [Function.comp, show 8 * i.succ = x.length + 8 * i by rw [hx]; simp; ring, ← List.drop_drop,
      List.drop_left' rfl]

theorem blocks_flatten {r : List (List Byte)} (h : Blk r) : Spec.blocks r.flatten = r := by
  induction r with
  | nil => rfl
  | cons x r ih =>
    rw [List.flatten_cons, blocks_cons (h x (by simp)), ih (fun y hy => h y (by simp [hy]))]

theorem flatten_blocks : ∀ (n : Nat) (p : List Byte), p.length = 8 * n →
    Blk (Spec.blocks p) ∧ (Spec.blocks p).flatten = p ∧ (Spec.blocks p).length = n
  | 0, p, h => by
    have : p = [] := List.length_eq_zero_iff.mp (by omega)
    subst this; exact ⟨by simp [Spec.blocks, Blk], rfl, rfl⟩
  | n + 1, p, h => by
    have h8 : (p.take 8).length = 8 := by rw [List.length_take]; omega
    obtain ⟨h1, h2, h3⟩ := flatten_blocks n (p.drop 8) (by rw [List.length_drop]; omega)
    have e := blocks_cons (p := p.drop 8) h8
    rw [List.take_append_drop] at e
    rw [e]
    refine ⟨?_, by rw [List.flatten_cons, h2, List.take_append_drop], by simp [h3]⟩
    intro y hy
    rcases List.mem_cons.mp hy with rfl | hy
    · exact h8
    · exact h1 y hy

/-! ### wrap and unwrap -/

theorem wrap_eq (C : Cipher) (iv p : List Byte) :
    Spec.wrap C.enc iv p = (rnds C.enc (Spec.blocks p).length 6 0 (iv, Spec.blocks p)).1 ++
      (rnds C.enc (Spec.blocks p).length 6 0 (iv, Spec.blocks p)).2.flatten := by
  rw [Spec.wrap, rounds_eq]

theorem wrap_length (C : Cipher) {iv p : List Byte} {n : Nat} (hi : iv.length = 8) (hp : p.length = 8 * n) :
    (Spec.wrap C.enc iv p).length = p.length + 8 := by
  obtain ⟨h1, h2, h3⟩ := flatten_blocks n p hp
  obtain ⟨l1, l2, l3⟩ := rnds_len C 6 0 (iv, Spec.blocks p) hi h1 h3
  rw [wrap_eq, h3, List.length_append, l1, flat_length l2, l3, hp]; ring

theorem wrap_inj (C : Cipher) {iv iv' p p' : List Byte} {n : Nat} (hi : iv.length = 8) (hi' : iv'.length = 8)
    (hp : p.length = 8 * n) (hp' : p'.length = 8 * n)
    (h : Spec.wrap C.enc iv p = Spec.wrap C.enc iv' p') : iv = iv' ∧ p = p' := by
  obtain ⟨h1, h2, h3⟩ := flatten_blocks n p hp
  obtain ⟨g1, g2, g3⟩ := flatten_blocks n p' hp'
  obtain ⟨l1, l2, l3⟩ := rnds_len C 6 0 (iv, Spec.blocks p) hi h1 h3
  obtain ⟨m1, m2, m3⟩ := rnds_len C 6 0 (iv', Spec.blocks p') hi' g1 g3
  rw [wrap_eq, wrap_eq, h3, g3] at h
  obtain ⟨e1, e2⟩ := List.append_inj h (by rw [l1, m1])
  have e3 : (rnds C.enc n 6 0 (iv, Spec.blocks p)).2 = (rnds C.enc n 6 0 (iv', Spec.blocks p')).2 := by
    rw [← blocks_flatten l2, e2, blocks_flatten m2]
  have := rnds_inj C 6 0 _ _ hi h1 h3 hi' g1 g3 (Prod.ext e1 e3)
  simp only [Prod.mk.injEq] at this
  exact ⟨this.1, by rw [← h2, this.2, g2]⟩

/-- `WRAP_Encrypt` on a buffer that holds the plaintext after its first 8 bytes. -/
theorem wrapEncrypt_spec (C : Cipher) {iv p pre post : List Byte} (hi : iv.length = 8) (hpre : pre.length = 8)
    (hp : p.length % 8 = 0) (h16 : 16 ≤ p.length) (hmax : p.length ≤ maxInput) :
    wrapEncrypt C (pre ++ (p ++ post)) p.length iv = some (.success, Spec.wrap C.enc iv p ++ post) := by
  obtain ⟨n, hn⟩ : ∃ n, p.length = 8 * n := ⟨p.length / 8, by omega⟩
  obtain ⟨h1, h2, h3⟩ := flatten_blocks n p hn
  obtain ⟨l1, l2, l3⟩ := rnds_len C 6 0 (iv, Spec.blocks p) hi h1 h3
  rw [wrapEncrypt, if_neg (by unfold maxInput at *; omega), hn]
  have := encRounds_spec C 6 0 (iv, Spec.blocks p) pre post hpre hi h1 h3
    (by unfold maxInput at hmax; omega)
  simp only [Nat.zero_add] at this
  rw [h2, show BitVec.ofNat 32 1 = 1#32 from rfl] at this
  rw [this]
  simp only [Option.bind_eq_bind, Option.bind_some]
  have hw := wr_mid (pre := []) (r := pre) (d := (rnds C.enc n 6 0 (iv, Spec.blocks p)).1)
    (post := (rnds C.enc n 6 0 (iv, Spec.blocks p)).2.flatten ++ post) (o := 0) (by rw [l1, hpre]) rfl
  rw [List.nil_append] at hw
  rw [hw]
  simp only [Option.bind_some, List.nil_append]
  rw [wrap_eq, h3, List.append_assoc]

/-- What `WRAP_Decrypt` computes before its integrity check. -/
theorem decRounds_wrap (C : Cipher) {inp out : List Byte} (h8 : inp.length % 8 = 0) (h16 : 16 ≤ inp.length)
    (hmax : inp.length ≤ maxInput) (ho : inp.length - 8 ≤ out.length) :
    ∃ a p, a.length = 8 ∧ p.length = inp.length - 8 ∧ Spec.wrap C.enc a p = inp ∧
      (do let a ← rd inp 0 8
          let d ← rd inp 8 (inp.length - 8)
          let out ← wr out 0 d
          decRounds C (inp.length - 8) 6 (BitVec.ofNat 32 (6 * ((inp.length - 8) / 8))) a out) =
        some (0#32, a, p ++ out.drop (inp.length - 8)) := by
  obtain ⟨n, hn⟩ : ∃ n, inp.length = 8 * n + 8 := ⟨inp.length / 8 - 1, by omega⟩
  have hn' : inp.length - 8 = 8 * n := by omega
  have hd : (inp.drop 8).length = 8 * n := by rw [List.length_drop]; omega
  have ht : (inp.take 8).length = 8 := by rw [List.length_take]; omega
  obtain ⟨h1, h2, h3⟩ := flatten_blocks n (inp.drop 8) hd
  obtain ⟨a, r, p1, p2, p3, p4, p5⟩ := decRounds_spec C 6 (inp.take 8) (Spec.blocks (inp.drop 8))
    (out.drop (8 * n)) ht h1 h3 (by unfold maxInput at hmax; omega)
  have hfl : r.flatten.length = 8 * n := by rw [flat_length p2, p3]
  refine ⟨a, r.flatten, p1, by rw [hfl, hn'], ?_, ?_⟩
  · rw [wrap_eq, blocks_flatten p2, p3, p5]
    dsimp only
    rw [h2, List.take_append_drop]
  · rw [hn', rd, if_pos (by omega), rd, if_pos (by omega)]
    simp only [Option.bind_eq_bind, Option.bind_some, List.drop_zero]
    rw [show (inp.drop 8).take (8 * n) = inp.drop 8 from List.take_of_length_le (by omega),
      wr_at (by omega), hd]
    simp only [Option.bind_some, List.take_zero, List.nil_append, Nat.zero_add]
    rw [show 6 * (8 * n / 8) = 6 * n by congr 1; omega]
    rw [h2] at p4
    exact p4

end Verif.Crypto.Wrap
