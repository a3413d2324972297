import Verif.Props.Arrays
/-! C39: copying inside one array through its element pointer. -/
namespace Jnivm
open Spec

variable {s s' : Arrays}

/-- Copying between two places of one allocation that do not overlap. -/
theorem memcpy_inside {m : Mem} {b w k l n : Nat} {c : List MemByte} (hb : m.blocks b = some c)
    (hk : w * k + w * n ≤ c.length) (hl : w * l + w * n ≤ c.length) (ho : k + n ≤ l ∨ l + n ≤ k) :
    ∃ c', m.memcpy (some ⟨b, w * k⟩) (some ⟨b, w * l⟩) (w * n) =
        .ok { m with blocks := fun x => if x = b then some c' else m.blocks x } ∧ c'.length = c.length ∧
      Assigned (element w c) (element w c') (fun i => element w c (l + i)) k n := by
  have hat : At m ⟨b, w * l⟩ (w * n) ((c.drop (w * l)).take (w * n)) := ⟨c, hb, hl, rfl⟩
  have hlen := at_length hat
  have hle : w * k + ((c.drop (w * l)).take (w * n)).length ≤ c.length := by rw [hlen]; exact hk
  have hov : overlapping (some ⟨b, w * k⟩) (some ⟨b, w * l⟩) (w * n) = false := by
    rcases ho with h | h
    · have := Nat.mul_le_mul_left w h
      rw [Nat.mul_add] at this
      simp [overlapping, Nat.not_lt.2 this]
    · have := Nat.mul_le_mul_left w h
      rw [Nat.mul_add] at this
      simp [overlapping, Nat.not_lt.2 this]
  refine ⟨_, memcpy_ok.2 ⟨_, _, _, _, rfl, rfl, hat, ⟨c, hb, hk, rfl⟩, hov, store_ok.2 ⟨_, c, rfl, hb, hle, rfl⟩⟩,
    splice_length hle, fun i => ?_⟩
  rw [element_splice hlen hle i]
  by_cases hi : k ≤ i ∧ i < k + n
  · rw [if_pos hi, if_pos hi, element_slice _ (by omega)]
  · rw [if_neg hi, if_neg hi]

/-- The buffer may be an element pointer of the array itself if it points outside the region: the call then
copies elements inside the array. -/
theorem region_apart {a : Nat} {ty : ElemType} {n : Nat} {c : List MemByte} {start len : Int} {p : Ptr}
    (h : Holds s a ty n c) (hi : InRange n start len)
    (hp : s.objs a = some ⟨ty, some p, n, true⟩) {k : Nat} (hk : k + len.toNat ≤ n)
    (ho : start.toNat + len.toNat ≤ k ∨ k + len.toNat ≤ start.toNat) :
    (∃ s' c', s.getRegion ty (some a) start len (some ⟨p.block, ty.size * k⟩) = .ok s' ∧ Holds s' a ty n c' ∧
      Assigned (element ty.size c) (element ty.size c') (fun i => element ty.size c (start.toNat + i)) k len.toNat) ∧
    ∃ s' c', s.setRegion ty (some a) start len (some ⟨p.block, ty.size * k⟩) = .ok s' ∧ Holds s' a ty n c' ∧
      Assigned (element ty.size c) (element ty.size c') (fun i => element ty.size c (k + i)) start.toNat
        len.toNat := by
  obtain ⟨q, h1, h2, h3, h4⟩ := region_ok h hi
  rw [h1] at hp
  cases hp
  have hk' : ty.size * k + ty.size * len.toNat ≤ c.length := by
    rw [h.size, ← Nat.mul_add]
    exact Nat.mul_le_mul_left _ hk
  constructor
  · obtain ⟨c', hm, hl, hc⟩ := memcpy_inside h2 hk' h4 ho.symm
    exact ⟨{ s with mem := { s.mem with blocks := fun x => if x = q then some c' else s.mem.blocks x } }, c',
      by simp only [Arrays.getRegion, h3, Res.bind_ok, hm],
      ⟨⟨⟨q, 0⟩, h1, rfl, if_pos rfl⟩, hl.trans h.size⟩, hc⟩
  · obtain ⟨c', hm, hl, hc⟩ := memcpy_inside h2 h4 hk' ho
    exact ⟨{ s with mem := { s.mem with blocks := fun x => if x = q then some c' else s.mem.blocks x } }, c',
      by simp only [Arrays.setRegion, h3, Res.bind_ok, hm],
      ⟨⟨⟨q, 0⟩, h1, rfl, if_pos rfl⟩, hl.trans h.size⟩, hc⟩

/-- The last element of the short array of `arraySample` copied to its first place. -/
example : ∃ s, ArraysReached s ∧ Holds s 0 .short 3 [0, 0, 1, 2, 3, 4] ∧ InRange 3 2 1 ∧
    s.objs 0 = some ⟨.short, some ⟨1, 0⟩, 3, true⟩ ∧ 0 + (1 : Int).toNat ≤ (2 : Int).toNat ∧
    (s.getRegion .short (some 0) 2 1 (some ⟨1, 0⟩)).bind (fun s' => .ok (s'.mem.blocks 1)) =
      .ok (some [3, 4, 1, 2, 3, 4]) := by
  have h : ((Arrays.initial 0xcd).run arraySample).bind (fun s =>
      .ok (s.mem.blocks 1, s.objs 0,
        (s.getRegion .short (some 0) 2 1 (some ⟨1, 0⟩)).bind (fun s' => .ok (s'.mem.blocks 1)))) =
      .ok (some [0, 0, 1, 2, 3, 4], some ⟨.short, some ⟨1, 0⟩, 3, true⟩, .ok (some [3, 4, 1, 2, 3, 4])) := by
    decide +kernel
  obtain ⟨s, h1, h2⟩ := Res.bind_eq_ok.1 h
  injection h2 with h2
  injection h2 with h2 h3
  injection h3 with h3 h4
  exact ⟨s, ⟨_, _, h1⟩, ⟨⟨_, h3, rfl, h2⟩, rfl⟩, by unfold InRange; decide, h3, by decide, h4⟩

end Jnivm
