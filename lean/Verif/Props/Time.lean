import Verif.Model.Time
import Verif.Lemmas.Int128
import Verif.Props.Ints
/-
Properties C37, C38: durations.
-/
namespace Gost
open Gost.Ints Gost.Spec

namespace Duration

/-- Specification: the length of a duration in nanoseconds. -/
def total (d : Duration) : Nat := d.seconds.toNat * 1000000000 + d.nanoseconds.toNat

/-- Specification: the nanosecond part is a proper fraction of a second. -/
def Normal (d : Duration) : Prop := d.nanoseconds.toNat < 1000000000

theorem toNat_setWidth64 (x : BitVec 32) : (x.setWidth 64).toNat = x.toNat := by
  have := x.isLt
  rw [BitVec.toNat_setWidth, Nat.mod_eq_of_lt (by omega)]

theorem fromU64_val (x : BitVec 64) : (U128.fromU64 x).val = x.toNat := by
  show (0#64).toNat * 2 ^ 64 + x.toNat = _
  rw [toNat_zero64]; omega

theorem new_spec (s : BitVec 64) (n : BitVec 32) :
    (s.toNat + n.toNat / 1000000000 < 2 ^ 64 → ∃ d, Duration.new s n = .ok d ∧ d.Normal ∧
      d.total = s.toNat * 1000000000 + n.toNat) ∧
    (2 ^ 64 ≤ s.toNat + n.toNat / 1000000000 → Duration.new s n = .error .explicit) := by
  have hn := n.isLt
  have e : ((n.udiv 1000000000#32).setWidth 64).toNat = n.toNat / 1000000000 := by
    rw [toNat_setWidth64, BitVec.udiv_eq, BitVec.toNat_udiv]; rfl
  have em : (n.umod 1000000000#32).toNat = n.toNat % 1000000000 := by
    rw [BitVec.umod_eq, BitVec.toNat_umod]; rfl
  have hc := (C01_checkedAdd_unsigned s ((n.udiv 1000000000#32).setWidth 64))
  unfold UChecked UFits at hc
  rw [e] at hc
  unfold Duration.new
  simp only
  constructor
  · intro h
    obtain ⟨v, hv, hvv⟩ := hc.1 (by omega)
    rw [hv]
    refine ⟨_, rfl, ?_, ?_⟩
    · show (n.umod 1000000000#32).toNat < _
      rw [em]; omega
    · show v.toNat * 1000000000 + (n.umod 1000000000#32).toNat = _
      rw [em]; omega
  · intro h
    rw [hc.2 (by omega)]

end Duration

/-- C37: DurationNew panics exactly on overflow of the seconds, otherwise it is normalised and the
total is preserved. -/
theorem C37_durationNew (s : BitVec 64) (n : BitVec 32) :
    (2 ^ 64 ≤ s.toNat + n.toNat / 10 ^ 9 → Duration.new s n = .error .explicit) ∧
    (s.toNat + n.toNat / 10 ^ 9 < 2 ^ 64 → ∃ d, Duration.new s n = .ok d ∧ d.nanoseconds.toNat < 10 ^ 9 ∧
      d.seconds.toNat * 10 ^ 9 + d.nanoseconds.toNat = s.toNat * 10 ^ 9 + n.toNat) :=
  ⟨(Duration.new_spec s n).2, (Duration.new_spec s n).1⟩

example : Duration.new 5#64 3500000000#32 = .ok ⟨8#64, 500000000#32⟩ ∧
    Duration.new (-1#64) 1000000000#32 = .error .explicit ∧
    Duration.new (-1#64) 999999999#32 = .ok ⟨-1#64, 999999999#32⟩ := by decide

/-- C38 constructors: they never panic and denote exactly the given number of units. -/
theorem C38_duration_constructors (x : BitVec 64) :
    (∃ d, Duration.fromSecs x = .ok d ∧ d.Normal ∧ d.total = x.toNat * 10 ^ 9) ∧
    (∃ d, Duration.fromMillis x = .ok d ∧ d.Normal ∧ d.total = x.toNat * 10 ^ 6) ∧
    (∃ d, Duration.fromMicros x = .ok d ∧ d.Normal ∧ d.total = x.toNat * 10 ^ 3) ∧
    (∃ d, Duration.fromNanos x = .ok d ∧ d.Normal ∧ d.total = x.toNat) := by
  have hx := x.isLt
  have hdiv : ∀ m : BitVec 64, (x.udiv m).toNat = x.toNat / m.toNat := fun m => by
    rw [BitVec.udiv_eq, BitVec.toNat_udiv]
  have hmod : ∀ m : BitVec 64, m.toNat < 2 ^ 32 → 0 < m.toNat →
      ((x.umod m).setWidth 32).toNat = x.toNat % m.toNat := fun m hm h0 => by
    have := Nat.mod_lt x.toNat h0
    rw [BitVec.toNat_setWidth, BitVec.umod_eq, BitVec.toNat_umod, Nat.mod_eq_of_lt (by omega)]
  refine ⟨?_, ?_, ?_, ?_⟩
  · have e : (0#32).toNat = 0 := by decide
    obtain ⟨d, h1, h2, h3⟩ := (Duration.new_spec x 0#32).1 (by rw [e]; omega)
    exact ⟨d, h1, h2, by rw [h3, e]; omega⟩
  · have em : ((x.umod 1000#64).setWidth 32 * 1000000#32).toNat = x.toNat % 1000 * 1000000 := by
      have h := hmod 1000#64 (by decide) (by decide)
      have e : (1000#64).toNat = 1000 := by decide
      rw [e] at h
      rw [BitVec.toNat_mul, h]
      have e : (1000000#32).toNat = 1000000 := by decide
      rw [e, Nat.mod_eq_of_lt (by omega)]
    have ed : (x.udiv 1000#64).toNat = x.toNat / 1000 := hdiv 1000#64
    obtain ⟨d, h1, h2, h3⟩ := (Duration.new_spec (x.udiv 1000#64)
      ((x.umod 1000#64).setWidth 32 * 1000000#32)).1 (by rw [em, ed]; omega)
    exact ⟨d, h1, h2, by rw [h3, em, ed]; omega⟩
  · have em : ((x.umod 1000000#64).setWidth 32 * 1000#32).toNat = x.toNat % 1000000 * 1000 := by
      have h := hmod 1000000#64 (by decide) (by decide)
      have e : (1000000#64).toNat = 1000000 := by decide
      rw [e] at h
      rw [BitVec.toNat_mul, h]
      have e : (1000#32).toNat = 1000 := by decide
      rw [e, Nat.mod_eq_of_lt (by omega)]
    have ed : (x.udiv 1000000#64).toNat = x.toNat / 1000000 := hdiv 1000000#64
    obtain ⟨d, h1, h2, h3⟩ := (Duration.new_spec (x.udiv 1000000#64)
      ((x.umod 1000000#64).setWidth 32 * 1000#32)).1 (by rw [em, ed]; omega)
    exact ⟨d, h1, h2, by rw [h3, em, ed]; omega⟩
  · have em : ((x.umod 1000000000#64).setWidth 32).toNat = x.toNat % 1000000000 :=
      hmod 1000000000#64 (by decide) (by decide)
    have ed : (x.udiv 1000000000#64).toNat = x.toNat / 1000000000 := hdiv 1000000000#64
    obtain ⟨d, h1, h2, h3⟩ := (Duration.new_spec (x.udiv 1000000000#64)
      ((x.umod 1000000000#64).setWidth 32)).1 (by rw [em, ed]; omega)
    exact ⟨d, h1, h2, by rw [h3, em, ed]; omega⟩

/-- C38 accessors: on every normalised duration the As* methods return the floor of the total in the
unit (never wrapping), the Subsec* methods the fraction of a second, and IsZero tests for length 0. -/
theorem C38_duration_accessors (d : Duration) (h : d.Normal) :
    d.asSecs.toNat = d.total / 10 ^ 9 ∧ d.asMillis.val = d.total / 10 ^ 6 ∧
    d.asMicros.val = d.total / 10 ^ 3 ∧ d.asNanos.val = d.total ∧
    d.subsecMillis.toNat = d.total % 10 ^ 9 / 10 ^ 6 ∧ d.subsecMicros.toNat = d.total % 10 ^ 9 / 10 ^ 3 ∧
    d.subsecNanos.toNat = d.total % 10 ^ 9 ∧ (d.isZero = true ↔ d.total = 0) := by
  have hs := d.seconds.isLt
  unfold Duration.Normal at h
  have hd : ∀ m : BitVec 32, (d.nanoseconds.udiv m).toNat = d.nanoseconds.toNat / m.toNat := fun m => by
    rw [BitVec.udiv_eq, BitVec.toNat_udiv]
  have key : ∀ (m : BitVec 64) (n : BitVec 32), m.toNat ≤ 1000000000 →
      (((U128.fromU64 d.seconds).mul (U128.fromU64 m)).add (U128.fromU64 (n.setWidth 64))).val =
        d.seconds.toNat * m.toNat + n.toNat := by
    intro m n hm
    have hn := n.isLt
    have hle : d.seconds.toNat * m.toNat ≤ d.seconds.toNat * 1000000000 := Nat.mul_le_mul_left _ hm
    rw [U128.add_val, U128.mul_val, Duration.fromU64_val, Duration.fromU64_val, Duration.fromU64_val,
      Duration.toNat_setWidth64]
    generalize d.seconds.toNat * m.toNat = p at *
    omega
  have e1 : (1000000#32).toNat = 1000000 := by decide
  have e2 : (1000#32).toNat = 1000 := by decide
  have e3 : (1000#64).toNat = 1000 := by decide
  have e4 : (1000000#64).toNat = 1000000 := by decide
  have e5 : (1000000000#64).toNat = 1000000000 := by decide
  refine ⟨?_, ?_, ?_, ?_, ?_, ?_, ?_, ?_⟩
  · unfold Duration.total Duration.asSecs; omega
  · unfold Duration.asMillis; rw [key _ _ (by decide), hd, e1, e3]; unfold Duration.total; omega
  · unfold Duration.asMicros; rw [key _ _ (by decide), hd, e2, e4]; unfold Duration.total; omega
  · unfold Duration.asNanos; rw [key _ _ (by decide), e5]; rfl
  · unfold Duration.subsecMillis; rw [hd, e1]; unfold Duration.total; omega
  · unfold Duration.subsecMicros; rw [hd, e2]; unfold Duration.total; omega
  · unfold Duration.subsecNanos Duration.total; omega
  · have z1 : d.seconds.toNat = 0 ↔ d.seconds = 0#64 :=
      ⟨fun h => BitVec.eq_of_toNat_eq (by rw [h]; rfl), fun h => by rw [h]; rfl⟩
    have z2 : d.nanoseconds.toNat = 0 ↔ d.nanoseconds = 0#32 :=
      ⟨fun h => BitVec.eq_of_toNat_eq (by rw [h]; rfl), fun h => by rw [h]; rfl⟩
    unfold Duration.isZero
    rw [Bool.and_eq_true, beq_iff_eq, beq_iff_eq, ← z1, ← z2]
    unfold Duration.total
    omega

/-- C38 round trips: reading a duration in the unit it was built from gives the argument back. -/
theorem C38_duration_roundtrip (x : BitVec 64) :
    (∃ d, Duration.fromSecs x = .ok d ∧ d.asSecs = x) ∧
    (∃ d, Duration.fromMillis x = .ok d ∧ d.asMillis.val = x.toNat) ∧
    (∃ d, Duration.fromMicros x = .ok d ∧ d.asMicros.val = x.toNat) ∧
    (∃ d, Duration.fromNanos x = .ok d ∧ d.asNanos.val = x.toNat) := by
  obtain ⟨⟨d1, h1, n1, t1⟩, ⟨d2, h2, n2, t2⟩, ⟨d3, h3, n3, t3⟩, ⟨d4, h4, n4, t4⟩⟩ :=
    C38_duration_constructors x
  have a1 := (C38_duration_accessors d1 n1)
  have a2 := (C38_duration_accessors d2 n2)
  have a3 := (C38_duration_accessors d3 n3)
  have a4 := (C38_duration_accessors d4 n4)
  refine ⟨⟨d1, h1, BitVec.eq_of_toNat_eq ?_⟩, ⟨d2, h2, ?_⟩, ⟨d3, h3, ?_⟩, ⟨d4, h4, ?_⟩⟩
  · rw [a1.1, t1]; omega
  · rw [a2.2.1, t2]; omega
  · rw [a3.2.2.1, t3]; omega
  · rw [a4.2.2.2.1, t4]

/-- A normalised duration, and the largest one: AsNanos does not fit 64 bits. -/
example : Duration.Normal ⟨-1#64, 999999999#32⟩ ∧
    (Duration.asNanos ⟨-1#64, 999999999#32⟩).val = 18446744073709551615999999999 := by
  have h : Duration.Normal ⟨-1#64, 999999999#32⟩ := by unfold Duration.Normal; decide
  exact ⟨h, by rw [(C38_duration_accessors _ h).2.2.2.1]; decide⟩

example : Duration.fromMillis 1234567#64 = .ok ⟨1234#64, 567000000#32⟩ ∧
    Duration.subsecMillis ⟨1234#64, 567000000#32⟩ = 567#32 := by decide

end Gost
