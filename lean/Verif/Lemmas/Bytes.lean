import Verif.Model.Bytes
import Verif.Model.Record
/-! Helper lemmas on big-endian encodings and slices. -/
namespace Rothko

@[simp] theorem beBytes_length (n x : Nat) : (beBytes n x).length = n := by
  induction n with
  | zero => rfl
  | succ n ih => simp [beBytes, ih]

theorem beNat_foldl (bs : Bytes) (a : Nat) :
    bs.foldl (fun a (b : UInt8) => a * 256 + b.toNat) a = a * 256 ^ bs.length + beNat bs := by
  unfold beNat
  induction bs generalizing a with
  | nil => simp
  | cons b bs ih =>
    simp only [List.foldl_cons, List.length_cons]
    rw [ih, ih (0 * 256 + b.toNat)]
    rw [Nat.pow_succ]
    grind

theorem beNat_cons (b : UInt8) (bs : Bytes) :
    beNat (b :: bs) = b.toNat * 256 ^ bs.length + beNat bs := by
  conv => lhs; unfold beNat
  rw [List.foldl_cons, beNat_foldl]; simp

theorem beNat_lt (bs : Bytes) : beNat bs < 256 ^ bs.length := by
  induction bs with
  | nil => simp [beNat]
  | cons b bs ih =>
    rw [beNat_cons, List.length_cons, Nat.pow_succ]
    have hb : b.toNat ≤ 255 := by have := b.toNat_lt; omega
    have := Nat.mul_le_mul_right (256 ^ bs.length) hb
    omega

theorem beNat_beBytes (n x : Nat) : beNat (beBytes n x) = x % 256 ^ n := by
  induction n with
  | zero => simp [beBytes, beNat]; omega
  | succ n ih =>
    rw [beBytes, beNat_cons, ih, beBytes_length, Nat.pow_succ]
    rw [Nat.mod_mul, UInt8.toNat_ofNat']
    rw [Nat.mul_comm (256 ^ n)]
    show x / 256 ^ n % 256 * 256 ^ n + _ = _
    omega

theorem beBytes_beNat (bs : Bytes) : beBytes bs.length (beNat bs) = bs := by
  suffices h : ∀ (bs : Bytes) k, beBytes bs.length (k * 256 ^ bs.length + beNat bs) = bs by
    simpa using h bs 0
  intro bs
  induction bs with
  | nil => intro k; rfl
  | cons b bs ih =>
    intro k
    rw [List.length_cons, beBytes, beNat_cons]
    have hp : 0 < 256 ^ bs.length := Nat.pos_of_ne_zero (by simp)
    congr 1
    · have h1 : k * 256 ^ (bs.length + 1) + (b.toNat * 256 ^ bs.length + beNat bs)
          = (k * 256 + b.toNat) * 256 ^ bs.length + beNat bs := by
        rw [Nat.pow_succ]; grind
      rw [h1, Nat.add_comm, Nat.add_mul_div_right _ _ hp, Nat.div_eq_of_lt (beNat_lt bs)]
      apply UInt8.toNat.inj
      have := b.toNat_lt
      simp
    · have h1 : k * 256 ^ (bs.length + 1) + (b.toNat * 256 ^ bs.length + beNat bs)
          = (k * 256 + b.toNat) * 256 ^ bs.length + beNat bs := by
        rw [Nat.pow_succ]; grind
      rw [h1, ih]

theorem slice_append_left (a b : Bytes) (lo hi : Nat) (h : hi ≤ a.length) :
    slice (a ++ b) lo hi = slice a lo hi := by
  simp [slice, List.take_append_of_le_length h]

theorem slice_append_right (a b : Bytes) (lo hi : Nat) (h : a.length ≤ lo) :
    slice (a ++ b) lo hi = slice b (lo - a.length) (hi - a.length) := by
  unfold slice
  rw [List.drop_take, List.drop_take, List.drop_append_of_le_length' h]
  · congr 1; omega
where
  List.drop_append_of_le_length' {a b : Bytes} {lo : Nat} (h : a.length ≤ lo) :
      (a ++ b).drop lo = b.drop (lo - a.length) := by
    rw [List.drop_append, List.drop_eq_nil_of_le h, List.nil_append]

@[simp] theorem slice_full (a : Bytes) (n : Nat) (h : a.length ≤ n) : slice a 0 n = a := by
  simp [slice, List.take_of_length_le h]

theorem slice_length (a : Bytes) (lo hi : Nat) (h : hi ≤ a.length) : (slice a lo hi).length = hi - lo := by
  simp [slice]; omega

theorem slice_append_slice (a : Bytes) (i j k : Nat) (h1 : i ≤ j) (h2 : j ≤ k) :
    slice a i j ++ slice a j k = slice a i k := by
  unfold slice
  rw [List.drop_take, List.drop_take, List.drop_take]
  have : a.drop j = (a.drop i).drop (j - i) := by rw [List.drop_drop]; congr 1; omega
  rw [this]
  have h3 : k - i = (j - i) + (k - j) := by omega
  rw [h3, List.take_add]

end Rothko
