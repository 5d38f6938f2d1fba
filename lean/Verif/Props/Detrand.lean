import Verif.Model.Detrand
import Mathlib.Data.Nat.ModEq
import Mathlib.Data.Nat.Prime.Basic
import Mathlib.Tactic.Ring
import Mathlib.Data.Finset.Card
import Mathlib.Data.Finset.Range
import Mathlib.Algebra.Ring.Parity
import Mathlib.Data.List.Nodup

/-! Property C139: the deterministic random numbers. -/
namespace Ngfs.Detrand

/-- One step on numbers. -/
def step (x : Nat) : Nat := 214013 * x + 2531011

/-- `1 + a + … + a ^ (n - 1)`. -/
def S : Nat → Nat
  | 0 => 0
  | n + 1 => 1 + 214013 * S n

theorem S_pow (n : Nat) : 214013 ^ n = 1 + 214012 * S n := by
  induction n with
  | zero => rfl
  | succ n ih => rw [pow_succ, ih, S]; ring

theorem S_add (m n : Nat) : S (m + n) = S m + 214013 ^ m * S n := by
  induction m with
  | zero => simp [S]
  | succ m ih => rw [Nat.add_right_comm, S, ih, S, pow_succ]; ring

theorem step_iter (n x : Nat) : step^[n] x = x + S n * (214012 * x + 2531011) := by
  induction n with
  | zero => simp [S]
  | succ n ih => rw [Function.iterate_succ_apply', ih, step, S]; ring

theorem S_parity (n : Nat) : S n % 2 = n % 2 := by
  induction n with
  | zero => rfl
  | succ n ih => rw [S]; omega

theorem S_dvd (k n : Nat) : 2 ^ k ∣ S n ↔ 2 ^ k ∣ n := by
  induction k generalizing n with
  | zero => simp
  | succ k ih =>
    rcases Nat.even_or_odd' n with ⟨e, rfl | rfl⟩
    · have h1 : S (2 * e) = 2 * (S e * (1 + 107006 * S e)) := by
        rw [two_mul, S_add, S_pow]; ring
      rw [h1, pow_succ', Nat.mul_dvd_mul_iff_left (by norm_num), Nat.mul_dvd_mul_iff_left (by norm_num), ← ih e]
      refine Nat.Coprime.dvd_mul_right (Nat.Coprime.pow_left _ ?_)
      rw [Nat.coprime_two_left, Nat.odd_iff]
      omega
    · have h2 := S_parity (2 * e + 1)
      have h3 : (2 : Nat) ∣ 2 ^ (k + 1) := Dvd.intro_left (2 ^ k) rfl
      constructor
      · intro h; have := h3.trans h; omega
      · intro h; have := h3.trans h; omega

theorem new_a (s : UInt32) : (Generator.new s).a = 214013 := rfl
theorem new_c (s : UInt32) : (Generator.new s).c = 2531011 := rfl
theorem new_seed (s : UInt32) : (Generator.new s).seed = s := rfl
theorem next_fst (g : Generator) : g.next.1 = g.a * g.seed + g.c := rfl
theorem next_snd (g : Generator) : g.next.2 = ⟨g.a * g.seed + g.c, g.a, g.c⟩ := rfl
theorem new_def (s : UInt32) : Generator.new s = ⟨s, 214013, 2531011⟩ := rfl
/-- One step on 32-bit numbers. -/
def f (x : UInt32) : UInt32 := 214013 * x + 2531011
theorem f_def (x : UInt32) : f x = 214013 * x + 2531011 := rfl
theorem next_new_fst (s : UInt32) : (Generator.new s).next.1 = f s := by
  rw [next_fst, new_a, new_c, new_seed, f_def]
theorem next_new_snd (s : UInt32) : (Generator.new s).next.2 = Generator.new (f s) := by
  rw [next_snd, new_a, new_c, new_seed, f_def, new_def]
theorem take_succ (g : Generator) (n : Nat) : g.take (n + 1) = g.next.1 :: g.next.2.take n := rfl

/-- The state after `n` calls, as a number. -/
theorem seed_iter (seed : UInt32) (n : Nat) :
    (f^[n] seed).toNat = step^[n] seed.toNat % 2 ^ 32 := by
  induction n with
  | zero => simp
  | succ n ih =>
    rw [Function.iterate_succ_apply', Function.iterate_succ_apply', f_def, UInt32.toNat_add, UInt32.toNat_mul, ih, step]
    simp [Nat.add_mod, Nat.mul_mod]

theorem iter_mod_inj (x n d k : Nat) : step^[n + d] x % 2 ^ k = step^[n] x % 2 ^ k ↔ 2 ^ k ∣ d := by
  rw [Nat.add_comm, Function.iterate_add_apply, step_iter d]
  generalize step^[n] x = y
  rw [← S_dvd k d]
  have hodd : Nat.Coprime (2 ^ k) (214012 * y + 2531011) := by
    refine Nat.Coprime.pow_left _ ?_
    rw [Nat.coprime_two_left, Nat.odd_iff]
    omega
  rw [← hodd.dvd_mul_right]
  generalize S d * (214012 * y + 2531011) = z
  generalize 2 ^ k = m
  constructor
  · intro h
    have := (Nat.modEq_iff_dvd' (Nat.le_add_right y z)).mp (show y ≡ y + z [MOD m] from h.symm)
    simpa using this
  · rintro ⟨q, rfl⟩
    simp

theorem range_iterate {α : Type} (f : α → α) (x : α) (n : Nat) :
    (List.range (n + 1)).map (fun i => f^[i + 1] x) = f x :: (List.range n).map (fun i => f^[i + 1] (f x)) := by
  rw [List.range_succ_eq_map, List.map_cons, List.map_map]
  rfl

theorem take_zero (g : Generator) : g.take 0 = [] := rfl

theorem take_eq (seed : UInt32) (n : Nat) :
    (Generator.new seed).take n = (List.range n).map fun i => f^[i + 1] seed := by
  induction n generalizing seed with
  | zero => rw [take_zero, List.range_zero, List.map_nil]
  | succ n ih => rw [take_succ, next_new_fst, next_new_snd, ih, range_iterate]

theorem take_nodup (seed : UInt32) (N : Nat) (hN : N = 4294967296) : (((Generator.new seed).take N).map UInt32.toNat).Nodup := by
  rw [take_eq, List.map_map]
  refine List.Nodup.map_on ?_ List.nodup_range
  intro i hi j hj h
  simp only [Function.comp, seed_iter] at h
  rw [List.mem_range] at hi hj
  have key : ∀ i j, i ≤ j → j < N → step^[i + 1] seed.toNat % 2 ^ 32 = step^[j + 1] seed.toNat % 2 ^ 32 → i = j := by
    intro i j hij hj h
    have h2 := (iter_mod_inj seed.toNat (i + 1) (j - i) 32).mp (by
      rw [show i + 1 + (j - i) = j + 1 by omega]; exact h.symm)
    have := Nat.eq_zero_of_dvd_of_lt h2 (by omega)
    omega
  rcases Nat.le_total i j with hij | hij
  · exact key i j hij hj h
  · exact (key j i hij hi h.symm).symm

theorem mem_of_card (l : List UInt32) (v : UInt32) (N : Nat) (hN : ∀ y : UInt32, y.toNat < N)
    (hnd : (l.map UInt32.toNat).Nodup) (hlen : l.length = N) : v ∈ l := by
  have hfull : (l.map UInt32.toNat).toFinset = Finset.range N := by
    refine Finset.eq_of_subset_of_card_le ?_ ?_
    · intro x hx
      simp only [List.mem_toFinset, List.mem_map] at hx
      obtain ⟨y, -, rfl⟩ := hx
      rw [Finset.mem_range]
      exact hN y
    · rw [List.toFinset_card_of_nodup hnd, List.length_map, hlen, Finset.card_range]
  have : v.toNat ∈ (l.map UInt32.toNat).toFinset := by
    rw [hfull, Finset.mem_range]; exact hN v
  simp only [List.mem_toFinset, List.mem_map] at this
  obtain ⟨y, hy, hyv⟩ := this
  rwa [← UInt32.toNat_inj.mp hyv]

theorem take_length (seed : UInt32) (n : Nat) : ((Generator.new seed).take n).length = n := by
  rw [take_eq, List.length_map, List.length_range]

theorem take_full (seed v : UInt32) (N : Nat) (hN : N = 4294967296) : v ∈ (Generator.new seed).take N := by
  refine mem_of_card _ v N ?_ (take_nodup seed N hN) (take_length seed N)
  intro y
  have := y.toNat_lt
  omega

theorem count_full (seed v : UInt32) (N : Nat) (hN : N = 4294967296) : ((Generator.new seed).take N).count v = 1 :=
  List.count_eq_one_of_mem (List.Nodup.of_map _ (take_nodup seed N hN)) (take_full seed v N hN)

/-- C139: among the first 2^32 numbers, each 32-bit number occurs exactly once, whatever the seed. -/
theorem C139_full_period (seed v : UInt32) : ((Generator.new seed).take (2 ^ 32)).count v = 1 := count_full seed v _ (by norm_num)

theorem take_get {seed x : UInt32} {n i : Nat} (h : ((Generator.new seed).take n)[i]? = some x) :
    x.toNat = step^[i + 1] seed.toNat % 2 ^ 32 := by
  rw [take_eq, List.getElem?_map, Option.map_eq_some_iff] at h
  obtain ⟨j, hj, rfl⟩ := h
  obtain ⟨hi, hj⟩ := List.getElem?_eq_some_iff.mp hj
  rw [List.getElem_range] at hj
  rw [seed_iter, hj]

/-- C139: two numbers of a sequence agree in their last `k` bits exactly when they are a multiple of 2^k calls apart. In
particular the sequence repeats after 2^32 numbers and not before, and odd and even numbers alternate. -/
theorem C139_low_bits (seed x y : UInt32) (n i d k : Nat) (hk : k ≤ 32) (hx : ((Generator.new seed).take n)[i]? = some x)
    (hy : ((Generator.new seed).take n)[i + d]? = some y) : x.toNat % 2 ^ k = y.toNat % 2 ^ k ↔ 2 ^ k ∣ d := by
  have hd : 2 ^ k ∣ 2 ^ 32 := Nat.pow_dvd_pow 2 hk
  rw [take_get hx, take_get hy, Nat.mod_mod_of_dvd _ hd, Nat.mod_mod_of_dvd _ hd, ← iter_mod_inj seed.toNat (i + 1) d k,
    show i + d + 1 = i + 1 + d by omega]
  exact eq_comm

/-- C139: the numbers depend on the seed only: a shorter run is the beginning of a longer one. -/
theorem C139_prefix (seed : UInt32) (m n : Nat) : (Generator.new seed).take m <+: (Generator.new seed).take (m + n) := by
  rw [take_eq, take_eq, List.range_add, List.map_append]
  exact List.prefix_append _ _

/-- C139: the first numbers of the seed the test program uses, with their places. -/
example : ((Generator.new 12345).take 3)[0]? = some 2644521496 ∧ ((Generator.new 12345).take 3)[0 + 2]? = some 3837989202 := by decide

end Ngfs.Detrand
