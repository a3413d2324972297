import Verif.Lemmas.MemberOps
/-! Concrete reachable states used by the examples and counterexamples. -/
namespace Jnivm
open Spec

theorem bindType_spec {w : World} (inv : MemInv w) (t : Nat) (n : Str) (bs : List (Option Nat)) :
    ∃ w' c, (MemOp.bindType t n bs).run w = .ok w' ∧ w'.IsClass n c ∧
      (∀ u, w'.types u = if u = t then some c else w.types u) ∧
      (∀ d, w'.mem d = if d = c then { w.mem c with bases := some bs } else w.mem d) ∧
      (∀ m d, w.IsClass m d → w'.IsClass m d) ∧ w'.next = w.next := by
  obtain ⟨r', c, e, hl, hcr⟩ := findClass_create inv.reg n
  have h1 : (MemOp.bindType t n bs).run w = .ok ({ w.setMem c { w.mem c with bases := some bs } with
      reg := r', types := fun u => if u = t then some c else w.types u } : World) := by
    simp only [MemOp.run, World.bindType, e]
  have inv' := step_memInv inv h1
  refine ⟨_, c, h1, (isClass_iff inv').2 hl, fun _ => rfl, fun _ => rfl, ?_, rfl⟩
  intro m d hd
  exact (isClass_iff inv').2 (hcr.keep m d ((isClass_iff inv).1 hd))

theorem isClass_ne {w : World} (inv : MemInv w) {m n : Str} {c d : Nat} (h : w.IsClass m c)
    (h' : w.IsClass n d) (hne : m ≠ n) : c ≠ d := by
  rintro rfl
  obtain ⟨cd, e1, p1⟩ := isClass_record inv h
  obtain ⟨cd', e2, p2⟩ := isClass_record inv h'
  rw [e1] at e2; cases e2
  exact hne (p1.symm.trans p2)

/-- A fresh VM in which class "D" was registered with the superclasses "A" and "B". -/
theorem sample_multi : ∃ w a b d, MemReachable w ∧ w.IsClass "A".toList a ∧ w.IsClass "B".toList b ∧
    w.IsClass "D".toList d ∧ a ≠ b ∧ a ≠ d ∧ b ≠ d ∧
    w.bases a = some [none] ∧ w.bases b = some [none] ∧ w.bases d = some [some a, some b] ∧
    ∀ c, (w.mem c).methods = [] ∧ (w.mem c).fields = [] := by
  have i0 := initial_memInv
  obtain ⟨w1, a, r1, c1, t1, m1, _, _⟩ := bindType_spec i0 0 "A".toList [none]
  have i1 := step_memInv i0 r1
  obtain ⟨w2, b, r2, c2, t2, m2, k2, _⟩ := bindType_spec i1 1 "B".toList [none]
  have i2 := step_memInv i1 r2
  obtain ⟨w3, d, r3, c3, t3, m3, k3, _⟩ := bindType_spec i2 2 "D".toList [some 0, some 1]
  have i3 := step_memInv i2 r3
  have ca : w3.IsClass "A".toList a := k3 _ _ (k2 _ _ c1)
  have cb : w3.IsClass "B".toList b := k3 _ _ c2
  have hab := isClass_ne i3 ca cb (by decide)
  have had := isClass_ne i3 ca c3 (by decide)
  have hbd := isClass_ne i3 cb c3 (by decide)
  refine ⟨w3, a, b, d, ⟨[.bindType 0 "A".toList [none], .bindType 1 "B".toList [none],
    .bindType 2 "D".toList [some 0, some 1]], ?_⟩, ca, cb, c3, hab, had, hbd, ?_, ?_, ?_, ?_⟩
  · simp only [runMem, r1, Res.bind, r2, r3]
  · unfold World.bases
    rw [m3, if_neg had, m2, if_neg hab, m1, if_pos rfl]; rfl
  · unfold World.bases
    rw [m3, if_neg hbd, m2, if_pos rfl]; rfl
  · unfold World.bases
    rw [m3, if_pos rfl]
    simp [t3, t2, t1]
  · intro c
    have e0 : ∀ c, (World.initial.mem c).methods = [] ∧ (World.initial.mem c).fields = [] := fun _ => ⟨rfl, rfl⟩
    have e1 : ∀ c, (w1.mem c).methods = [] ∧ (w1.mem c).fields = [] := by
      intro c; rw [m1]; split
      · exact e0 a
      · exact e0 c
    have e2 : ∀ c, (w2.mem c).methods = [] ∧ (w2.mem c).fields = [] := by
      intro c; rw [m2]; split
      · exact e1 b
      · exact e1 c
    rw [m3]; split
    · exact e2 d
    · exact e2 c

/-- A fresh VM in which class "D" was registered with the superclass "A". -/
theorem sample_single : ∃ w a d, MemReachable w ∧ w.IsClass "A".toList a ∧
    w.IsClass "D".toList d ∧ a ≠ d ∧ w.bases a = some [none] ∧ w.bases d = some [some a] ∧
    (∀ c, c ≠ a → c ≠ d → w.bases c = none) ∧
    ∀ c, (w.mem c).methods = [] ∧ (w.mem c).fields = [] := by
  have i0 := initial_memInv
  obtain ⟨w1, a, r1, c1, t1, m1, _, _⟩ := bindType_spec i0 0 "A".toList [none]
  have i1 := step_memInv i0 r1
  obtain ⟨w3, d, r3, c3, t3, m3, k3, _⟩ := bindType_spec i1 2 "D".toList [some 0]
  have i3 := step_memInv i1 r3
  have ca : w3.IsClass "A".toList a := k3 _ _ c1
  have had := isClass_ne i3 ca c3 (by decide)
  refine ⟨w3, a, d, ⟨[.bindType 0 "A".toList [none], .bindType 2 "D".toList [some 0]], ?_⟩,
    ca, c3, had, ?_, ?_, ?_, ?_⟩
  · simp only [runMem, r1, Res.bind, r3]
  · unfold World.bases
    rw [m3, if_neg had, m1, if_pos rfl]; rfl
  · unfold World.bases
    rw [m3, if_pos rfl]
    simp [t3, t1]
  · intro c h1 h2
    unfold World.bases
    rw [m3, if_neg h2, m1, if_neg h1]; rfl
  · intro c
    have e0 : ∀ c, (World.initial.mem c).methods = [] ∧ (World.initial.mem c).fields = [] := fun _ => ⟨rfl, rfl⟩
    have e1 : ∀ c, (w1.mem c).methods = [] ∧ (w1.mem c).fields = [] := by
      intro c; rw [m1]; split
      · exact e0 a
      · exact e0 c
    rw [m3]; split
    · exact e1 d
    · exact e1 c

/-- A fresh VM in which class "C" was registered with the superclass "B" and that with "A". -/
theorem sample_chain : ∃ w a b c, MemReachable w ∧ w.IsClass "A".toList a ∧ w.IsClass "B".toList b ∧
    w.IsClass "C".toList c ∧ a ≠ b ∧ a ≠ c ∧ b ≠ c ∧
    w.bases a = some [none] ∧ w.bases b = some [some a] ∧ w.bases c = some [some b] ∧
    ∀ c, (w.mem c).methods = [] ∧ (w.mem c).fields = [] := by
  have i0 := initial_memInv
  obtain ⟨w1, a, r1, c1, t1, m1, _, _⟩ := bindType_spec i0 0 "A".toList [none]
  have i1 := step_memInv i0 r1
  obtain ⟨w2, b, r2, c2, t2, m2, k2, _⟩ := bindType_spec i1 1 "B".toList [some 0]
  have i2 := step_memInv i1 r2
  obtain ⟨w3, d, r3, c3, t3, m3, k3, _⟩ := bindType_spec i2 2 "C".toList [some 1]
  have i3 := step_memInv i2 r3
  have ca : w3.IsClass "A".toList a := k3 _ _ (k2 _ _ c1)
  have cb : w3.IsClass "B".toList b := k3 _ _ c2
  have hab := isClass_ne i3 ca cb (by decide)
  have had := isClass_ne i3 ca c3 (by decide)
  have hbd := isClass_ne i3 cb c3 (by decide)
  refine ⟨w3, a, b, d, ⟨[.bindType 0 "A".toList [none], .bindType 1 "B".toList [some 0],
    .bindType 2 "C".toList [some 1]], ?_⟩, ca, cb, c3, hab, had, hbd, ?_, ?_, ?_, ?_⟩
  · simp only [runMem, r1, Res.bind, r2, r3]
  · unfold World.bases
    rw [m3, if_neg had, m2, if_neg hab, m1, if_pos rfl]; rfl
  · unfold World.bases
    rw [m3, if_neg hbd, m2, if_pos rfl]
    simp [t3, t2, t1]
  · unfold World.bases
    rw [m3, if_pos rfl]
    simp [t3, t2]
  · intro c
    have e0 : ∀ c, (World.initial.mem c).methods = [] ∧ (World.initial.mem c).fields = [] := fun _ => ⟨rfl, rfl⟩
    have e1 : ∀ c, (w1.mem c).methods = [] ∧ (w1.mem c).fields = [] := by
      intro c; rw [m1]; split
      · exact e0 a
      · exact e0 c
    have e2 : ∀ c, (w2.mem c).methods = [] ∧ (w2.mem c).fields = [] := by
      intro c; rw [m2]; split
      · exact e1 b
      · exact e1 c
    rw [m3]; split
    · exact e2 d
    · exact e2 c

theorem declare_unit (r : Registry) : declare r "()V".toList = .ok r := by
  have := declare_sig (params := []) (ret := none) (by simp) (by simp) r
  exact this

theorem declare_int (r : Registry) : declare r "I".toList = .ok r := by
  have := declare_ty (t := .prim .int) (by trivial) r
  exact this

end Jnivm
