import Verif.Lemmas.CodegenBinding
/-! Outer classes come before their inner classes in the class dump. -/
namespace Jnivm
open Spec

/-- Each is allowed anyway or behind one of those before. -/
def OrdFrom (ok : Nat → Prop) (K : Nat → Nat → Prop) : List Nat → List Nat → Prop
  | _, [] => True
  | seen, x :: l => (ok x ∨ ∃ y ∈ seen, K y x) ∧ OrdFrom ok K (x :: seen) l

theorem ordFrom_append {ok : Nat → Prop} {K : Nat → Nat → Prop} (a b : List Nat) : ∀ seen,
    OrdFrom ok K seen a → (∀ seen', (∀ x ∈ seen, x ∈ seen') → OrdFrom ok K seen' b) → OrdFrom ok K seen (a ++ b) := by
  induction a with
  | nil => intro seen _ h; exact h seen fun _ h => h
  | cons x a ih =>
    intro seen h1 h2
    exact ⟨h1.1, ih _ h1.2 fun seen' hs => h2 seen' fun y hy => hs y (by simp [hy])⟩

theorem ordFrom_flatMap {α : Type} {ok : Nat → Prop} {K : Nat → Nat → Prop} {f : α → List Nat} (l : List α) : ∀ seen,
    (∀ x ∈ l, ∀ seen', (∀ y ∈ seen, y ∈ seen') → OrdFrom ok K seen' (f x)) → OrdFrom ok K seen (l.flatMap f) := by
  induction l with
  | nil => intro _ _; trivial
  | cons x l ih =>
    intro seen h
    rw [List.flatMap_cons]
    refine ordFrom_append _ _ _ (h x (by simp) seen fun _ h => h) fun seen' hs => ih seen' fun z hz seen'' hs' => ?_
    exact h z (by simp [hz]) seen'' fun y hy => hs' y (hs y hy)

/-- `x` is an inner class of `y`. -/
def KidOf (r : Registry) (y x : Nat) : Prop := ∃ cd : ClassNode, r.cls[y]? = some cd ∧ x ∈ cd.classes

/-- `x` is in a namespace. -/
def TopClass (r : Registry) (x : Nat) : Prop := ∃ (n : Nat) (nd : NsNode), r.ns[n]? = some nd ∧ x ∈ nd.classes

theorem clsList_ord (r : Registry) (ok : Nat → Prop) (d : Nat) : ∀ scope c seen, (ok c ∨ ∃ y ∈ seen, KidOf r y c) →
    OrdFrom ok (KidOf r) seen ((clsList r d scope c).map Prod.snd) := by
  induction d with
  | zero => intro _ _ _ _; trivial
  | succ d ih =>
    intro scope c seen h
    rw [clsList]
    cases hc : r.cls[c]? with
    | none => trivial
    | some cd =>
      simp only
      split
      · trivial
      · rw [List.map_cons, List.map_flatMap]
        refine ⟨h, ordFrom_flatMap _ _ fun k hk seen' hs => ih _ k seen' (.inr ⟨c, hs c (by simp), cd, hc, hk⟩)⟩

theorem nsList_ord (r : Registry) (d : Nat) : ∀ scope n seen,
    OrdFrom (TopClass r) (KidOf r) seen ((nsList r d scope n).map Prod.snd) := by
  induction d with
  | zero => intro _ _ _; trivial
  | succ d ih =>
    intro scope n seen
    rw [nsList]
    cases hn : r.ns[n]? with
    | none => trivial
    | some nd =>
      simp only
      rw [List.map_append, List.map_flatMap, List.map_flatMap]
      exact ordFrom_append _ _ _ (ordFrom_flatMap _ _ fun c hc seen' _ => clsList_ord r _ d _ c seen' (.inl ⟨n, nd, hn, hc⟩))
        fun seen' _ => ordFrom_flatMap _ _ fun k _ seen'' _ => ih _ k seen''

theorem ordFrom_split {ok : Nat → Prop} {K : Nat → Nat → Prop} (a : List Nat) : ∀ seen x b, OrdFrom ok K seen (a ++ x :: b) →
    ok x ∨ ∃ y, (y ∈ seen ∨ y ∈ a) ∧ K y x := by
  induction a with
  | nil =>
    intro seen x b h
    exact h.1.imp_right fun ⟨y, hy, hk⟩ => ⟨y, .inl hy, hk⟩
  | cons z a ih =>
    intro seen x b h
    refine (ih _ x b h.2).imp_right ?_
    rintro ⟨y, hy, hk⟩
    refine ⟨y, ?_, hk⟩
    simp only [List.mem_cons] at hy ⊢
    rcases hy with (rfl | hy) | hy
    · exact .inr (.inl rfl)
    · exact .inl hy
    · exact .inr (.inr hy)

variable {r : Registry}

theorem split_dollar {o o' k k' : Str} (hk : '$' ∉ k) (hk' : '$' ∉ k') (h : o ++ '$' :: k = o' ++ '$' :: k') : o = o' := by
  have h := congrArg List.reverse h
  simp only [List.reverse_append, List.reverse_cons, List.append_assoc] at h
  have key : ∀ (a a' b b' : Str), '$' ∉ a → '$' ∉ a' → a ++ ([('$' : Char)] ++ b) = a' ++ ([('$' : Char)] ++ b') → b = b' := by
    intro a
    induction a with
    | nil =>
      intro a' b b' _ h2 h
      cases a' with
      | nil => exact (List.cons.inj h).2
      | cons c a' => exact absurd (by rw [← (List.cons.inj h).1]; simp) h2
    | cons c a ih =>
      intro a' b b' h1 h2 h
      cases a' with
      | nil => exact absurd (by rw [(List.cons.inj h).1]; simp) h1
      | cons c' a' => exact ih a' b b' (fun h => h1 (by simp [h])) (fun h => h2 (by simp [h])) (List.cons.inj h).2
  have := key _ _ _ _ (by simpa using hk) (by simpa using hk') h
  exact List.reverse_inj.1 this

theorem topClass_name (inv : RegInv r) {x : Nat} (h : TopClass r x) {cd : ClassNode} (hx : r.cls[x]? = some cd) {o k : Str}
    (hk : '/' ∉ k) (e : cd.nativeprefix = o ++ '$' :: k) : False := by
  obtain ⟨n, nd, hn, hm⟩ := h
  obtain ⟨π, σ, hT⟩ := inv.tree
  obtain ⟨cd', h1, h2, h3⟩ := hT.nsClasses n nd hn x hm
  rw [hx] at h1; cases h1
  have hs := ((inv.sib.nsClasses n nd hn).2 x hm cd hx).2
  rw [e, h2] at h3
  have hj : joinName (π n, [cd.name]) = (π n).flatMap (· ++ "/".toList) ++ cd.name := rfl
  rw [hj] at h3
  rcases List.append_eq_append_iff.1 h3 with ⟨c', e1, e2⟩ | ⟨c', e1, e2⟩
  · cases c' with
    | nil => exact hs.2.1 (by rw [List.nil_append] at e2; rw [← e2]; simp)
    | cons z c' =>
      have e3 := (List.cons.inj e2)
      have hz : '/' ∈ z :: c' := by
        have : ((π n).flatMap (· ++ "/".toList)).getLast? = some '/' := by
          rcases List.eq_nil_or_concat (π n) with h | ⟨l, y, h⟩
          · rw [h] at e1
            have := congrArg List.length e1
            simp at this
          · rw [h]
            simp
        rw [e1] at this
        have h4 : (o ++ z :: c').getLast? = (z :: c').getLast? := by
          rw [List.getLast?_append, List.getLast?_cons]
          rfl
        rw [h4] at this
        exact List.mem_of_getLast? this
      rcases List.mem_cons.1 hz with hz | hz
      · rw [← hz] at e3
        exact absurd e3.1 (by decide)
      · exact hk (by rw [e3.2]; simp [hz])
  · cases c' with
    | nil => exact hs.2.1 (by rw [List.nil_append] at e2; rw [e2]; simp)
    | cons z c' => exact hs.2.1 (by rw [e2]; simp)

end Jnivm
