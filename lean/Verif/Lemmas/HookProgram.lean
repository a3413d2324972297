import Verif.Lemmas.Nested
import Verif.Spec.HookProgram
/-! Histories of JNI calls are histories of the tables of members. -/
namespace Jnivm
open Spec

/-- The tables change by operations that satisfy `P`. -/
def ByMem (P : MemOp → Prop) (w w' : World) : Prop := ∃ mops, runMem w mops = .ok w' ∧ ∀ o ∈ mops, P o

theorem ByMem.refl {P : MemOp → Prop} (w : World) : ByMem P w w := ⟨[], rfl, nofun⟩

theorem ByMem.trans {P : MemOp → Prop} {a b c : World} (h1 : ByMem P a b) (h2 : ByMem P b c) : ByMem P a c := by
  obtain ⟨p, hp, hP⟩ := h1
  obtain ⟨q, hq, hQ⟩ := h2
  refine ⟨p ++ q, ?_, fun o ho => ?_⟩
  · rw [runMem_append, hp]; exact hq
  · rcases List.mem_append.1 ho with ho | ho
    · exact hP o ho
    · exact hQ o ho

theorem ByMem.one {P : MemOp → Prop} {w w' : World} {o : MemOp} (h : o.run w = .ok w') (ho : P o) : ByMem P w w' :=
  ⟨[o], by simp only [runMem, h, Res.bind_ok], fun x hx => by rw [List.mem_singleton.1 hx]; exact ho⟩

theorem ByMem.mono {P Q : MemOp → Prop} {w w' : World} (h : ByMem P w w') (hpq : ∀ o, P o → Q o) : ByMem Q w w' := by
  obtain ⟨p, hp, hP⟩ := h
  exact ⟨p, hp, fun o ho => hpq o (hP o ho)⟩

theorem found_byMem {P : MemOp → Prop} (hP : ∀ z n, P (.findClass z n)) (l : List (Str × Nat)) (w : World) :
    ByMem P w (found l w) := by
  induction l with
  | nil => exact .refl w
  | cons x l ih => exact ih.trans (.one (o := .findClass false x.1) rfl (hP ..))

theorem heapCall_byMem {P : MemOp → Prop} (hP : ∀ z n, P (.findClass z n)) {vm vm' : Vm} {t : Nat} {op : HeapOp}
    {out : Out} (h : vm.heapCall t op = .ok (vm', out)) : ByMem P vm.world vm'.world := by
  rw [(heapCall_ok h).2]
  exact found_byMem hP _ _

theorem resolve_byMem {P : MemOp → Prop} (hP : ∀ z n, P (.findClass z n)) {w : World} (hr : MemReachable w)
    (n : Option Str) : ByMem P w (Build.debug.resolve w n).1 ∧
      ∀ m, n = some m → ∃ c, (Build.debug.resolve w n).2 = some c ∧ (Build.debug.resolve w n).1.IsClass m c := by
  cases n with
  | none => exact ⟨.refl w, nofun⟩
  | some n =>
    obtain ⟨r, c, e, hr1, hc, hk⟩ := find_create hr n
    refine ⟨.one (o := .findClass false n) rfl (hP ..), fun m hm => ?_⟩
    cases hm
    simp only [Build.resolve, Build.debug, e]
    exact ⟨c, rfl, hc⟩

theorem client_byMem {w w' : World} (hr : MemReachable w) {t : Nat} {op : ClientOp} {a : ClientAnswer}
    (h : op.run .debug w = .ok (w', a)) : ByMem (CausedBy w' [(t, .cpp op)]) w w' := by
  have hP : ∀ z n, CausedBy w' [(t, .cpp op)] (.findClass z n) := fun _ _ => trivial
  have self : (t, JniOp.cpp op) ∈ [(t, JniOp.cpp op)] := List.mem_singleton.2 rfl
  cases op with
  | findClass n => cases h; exact (resolve_byMem (fun _ _ => trivial) hr (some n)).1
  | getMethodID d s r an cl n sig =>
    obtain ⟨⟨w1, id⟩, h1, h2⟩ := Res.bind_eq_ok.1 h
    cases h2
    refine (resolve_byMem hP hr cl).1.trans (.one (o := .getMethodID d s r an (Build.debug.resolve w cl).2 n sig) ?_ trivial)
    simp only [MemOp.run]
    rw [show World.getMethodID _ _ _ _ _ _ _ _ = _ from h1]
    rfl
  | getFieldID d s r cl n ty =>
    obtain ⟨⟨w1, id⟩, h1, h2⟩ := Res.bind_eq_ok.1 h
    cases h2
    refine (resolve_byMem hP hr cl).1.trans (.one (o := .getFieldID d s r (Build.debug.resolve w cl).2 n ty) ?_ trivial)
    simp only [MemOp.run]
    rw [show World.getFieldID _ _ _ _ _ _ _ = _ from h1]
    rfl
  | hookMethod cl s n sig fn =>
    obtain ⟨c, hc, h2⟩ := onClass_inv h
    cases h2
    obtain ⟨g, hg⟩ := resolve_byMem (P := CausedBy _ _) hP hr (some cl)
    obtain ⟨c', hc', hi⟩ := hg cl rfl
    rw [hc] at hc'; cases hc'
    have hr1 := (resolve_mem hr (some cl)).1
    have hrun : (MemOp.hookMethod c s n sig fn).run (Build.debug.resolve w (some cl)).1 = .ok _ := rfl
    exact g.trans (.one hrun ⟨t, cl, self, isClass_step hr1.inv hrun hi⟩)
  | hookField cl g s n ty fn =>
    obtain ⟨c, hc, h2⟩ := onClass_inv h
    cases h2
    obtain ⟨gg, hg⟩ := resolve_byMem (P := CausedBy _ _) hP hr (some cl)
    obtain ⟨c', hc', hi⟩ := hg cl rfl
    rw [hc] at hc'; cases hc'
    have hr1 := (resolve_mem hr (some cl)).1
    have hrun : (MemOp.hookField c g s n ty fn).run (Build.debug.resolve w (some cl)).1 = .ok _ := rfl
    exact gg.trans (.one hrun ⟨t, cl, self, isClass_step hr1.inv hrun hi⟩)
  | registerNatives cl l =>
    cases h
    obtain ⟨gg, hg⟩ := resolve_byMem (P := CausedBy _ _) hP hr cl
    have hr1 := (resolve_mem hr cl).1
    have hrun : (MemOp.registerNatives (Build.debug.resolve w cl).2 l).run (Build.debug.resolve w cl).1 = .ok _ := rfl
    refine gg.trans (.one hrun (.inr ⟨t, cl, self, fun m hm => ?_⟩))
    obtain ⟨d, hd, hi⟩ := hg m hm
    exact ⟨d, hd, isClass_step hr1.inv hrun hi⟩
  | unregisterNatives cl =>
    cases h
    obtain ⟨gg, hg⟩ := resolve_byMem (P := CausedBy _ _) hP hr cl
    have hr1 := (resolve_mem hr cl).1
    have hrun : (MemOp.unregisterNatives (Build.debug.resolve w cl).2).run (Build.debug.resolve w cl).1 = .ok _ := rfl
    refine gg.trans (.one hrun (.inr ⟨t, cl, self, fun m hm => ?_⟩))
    obtain ⟨d, hd, hi⟩ := hg m hm
    exact ⟨d, hd, isClass_step hr1.inv hrun hi⟩
  | bindType ty n bs =>
    cases h
    exact .one (o := .bindType ty n bs) rfl ⟨t, self⟩
  | isAssignableFrom d c1 c2 =>
    obtain ⟨x, h1, h2⟩ := Res.bind_eq_ok.1 h
    cases h2
    exact (resolve_byMem hP hr c1).1.trans (resolve_byMem hP (resolve_mem hr c1).1 c2).1
  | getSuperclass cl =>
    obtain ⟨c, hc, h2⟩ := onClass_inv h
    obtain ⟨x, h1, h2⟩ := Res.bind_eq_ok.1 h2
    cases h2
    exact (resolve_byMem hP hr (some cl)).1

/-- More classes are known and more calls were made. -/
theorem _root_.Spec.CausedBy.mono {w w' : World} {ops ops' : List (Nat × JniOp)}
    (hw : ∀ n c, w.IsClass n c → w'.IsClass n c) (ho : ∀ x ∈ ops, x ∈ ops') {o : MemOp} (h : CausedBy w ops o) :
    CausedBy w' ops' o := by
  cases o with
  | findClass => trivial
  | getMethodID => trivial
  | getFieldID => trivial
  | hookMethod c st n sig f => obtain ⟨t, cl, h1, h2⟩ := h; exact ⟨t, cl, ho _ h1, hw _ _ h2⟩
  | hookField c g st n ty f => obtain ⟨t, cl, h1, h2⟩ := h; exact ⟨t, cl, ho _ h1, hw _ _ h2⟩
  | registerNatives c l =>
    rcases h with ⟨t, r, h⟩ | ⟨t, cl, h1, h2⟩
    · exact .inl ⟨t, r, ho _ h⟩
    · refine .inr ⟨t, cl, ho _ h1, fun n hn => ?_⟩
      obtain ⟨d, hd, hi⟩ := h2 n hn
      exact ⟨d, hd, hw _ _ hi⟩
  | unregisterNatives c =>
    rcases h with ⟨t, r, h⟩ | ⟨t, cl, h1, h2⟩
    · exact .inl ⟨t, r, ho _ h⟩
    · refine .inr ⟨t, cl, ho _ h1, fun n hn => ?_⟩
      obtain ⟨d, hd, hi⟩ := h2 n hn
      exact ⟨d, hd, hw _ _ hi⟩
  | bindType ty n bs => obtain ⟨t, h⟩ := h; exact ⟨t, ho _ h⟩

theorem jni_byMem {vm vm' : Vm} (inv : JniInv vm) {t : Nat} {op : JniOp} {a : JniAnswer}
    (h : op.run vm t = .ok (vm', a)) : ByMem (CausedBy vm'.world [(t, op)]) vm.world vm'.world := by
  obtain ⟨hb, -⟩ := run_body h
  have hP : ∀ z n, CausedBy vm'.world [(t, op)] (.findClass z n) := fun _ _ => trivial
  have self : (t, op) ∈ [(t, op)] := List.mem_singleton.2 rfl
  cases op with
  | heap op =>
    obtain ⟨⟨v, o⟩, h1, h2⟩ := Res.bind_eq_ok.1 hb
    cases h2
    exact heapCall_byMem hP h1
  | getMethodID d s r an cl n sig =>
    obtain ⟨⟨v, x⟩, h1, h2⟩ := Res.bind_eq_ok.1 hb
    cases castClass_self inv h1
    obtain ⟨⟨w, id⟩, h3, h4⟩ := Res.bind_eq_ok.1 h2
    cases h4
    refine .one (o := .getMethodID d s r an x n sig) ?_ trivial
    simp only [MemOp.run]
    rw [show World.getMethodID _ _ _ _ _ _ _ _ = _ from h3]
    rfl
  | getFieldID d s r cl n ty =>
    obtain ⟨⟨v, x⟩, h1, h2⟩ := Res.bind_eq_ok.1 hb
    cases castClass_self inv h1
    obtain ⟨⟨w, id⟩, h3, h4⟩ := Res.bind_eq_ok.1 h2
    cases h4
    refine .one (o := .getFieldID d s r x n ty) ?_ trivial
    simp only [MemOp.run]
    rw [show World.getFieldID _ _ _ _ _ _ _ = _ from h3]
    rfl
  | registerNatives cl l =>
    obtain ⟨⟨v, x⟩, h1, h2⟩ := Res.bind_eq_ok.1 hb
    cases castClass_self inv h1
    cases h2
    exact .one (o := .registerNatives x l) rfl (.inl ⟨t, cl, self⟩)
  | unregisterNatives cl =>
    obtain ⟨⟨v, x⟩, h1, h2⟩ := Res.bind_eq_ok.1 hb
    cases castClass_self inv h1
    cases h2
    exact .one (o := .unregisterNatives x) rfl (.inl ⟨t, cl, self⟩)
  | isAssignableFrom d c1 c2 =>
    cases assignable_self inv hb
    exact .refl _
  | isInstanceOf d obj cl =>
    cases obj with
    | none => cases hb; exact .refl _
    | some o =>
      obtain ⟨⟨v, out⟩, h1, h2⟩ := Res.bind_eq_ok.1 hb
      have g := heapCall_grows inv h1
      cases out with
      | ref x =>
        cases assignable_self g.inv h2
        exact heapCall_byMem hP h1
      | _ => cases h2
  | getSuperclass cl =>
    obtain ⟨⟨v, x⟩, h1, h2⟩ := Res.bind_eq_ok.1 hb
    cases castClass_self inv h1
    obtain ⟨d, rfl, h2⟩ := onClass_inv h2
    obtain ⟨b, h3, h4⟩ := Res.bind_eq_ok.1 h2
    cases hn : vm.world.nameOf b with
    | none =>
      simp only [hn] at h4
      cases h4
      exact .refl _
    | some n =>
      simp only [hn] at h4
      obtain ⟨⟨v, o⟩, h5, h6⟩ := Res.bind_eq_ok.1 h4
      cases h6
      exact heapCall_byMem hP h5
  | cpp op =>
    obtain ⟨⟨w, x⟩, h1, h2⟩ := Res.bind_eq_ok.1 hb
    have g := client_byMem (t := t) inv.world h1
    obtain ⟨k1, k2⟩ := client_step inv.world h1
    cases hmk : op.makes with
    | none =>
      simp only [hmk] at h2
      cases h2
      exact g
    | some n =>
      simp only [hmk] at h2
      obtain ⟨⟨v, o⟩, h5, h6⟩ := Res.bind_eq_ok.1 h2
      cases h6
      have hs := (heapCall_ok h5).2
      refine ByMem.trans (b := w) (g.mono fun o ho => ho.mono (fun n c hc => ?_) fun _ hx => hx)
        (heapCall_byMem (vm := { vm with world := w }) hP h5)
      rw [hs]
      exact (found_spec _ k1).2.1 n c hc

theorem runJni_byMem {ops : List (Nat × JniOp)} : ∀ {vm vm' : Vm} {as : List JniAnswer}, JniInv vm →
    runJni vm ops = .ok (vm', as) → ByMem (CausedBy vm'.world ops) vm.world vm'.world := by
  induction ops with
  | nil => intro vm vm' as _ h; cases h; exact .refl _
  | cons x ops ih =>
    intro vm vm' as inv h
    obtain ⟨t, op⟩ := x
    obtain ⟨⟨v, a⟩, h1, h2⟩ := Res.bind_eq_ok.1 h
    obtain ⟨⟨v', as'⟩, h3, h4⟩ := Res.bind_eq_ok.1 h2
    cases h4
    have g := jni_grows inv h1
    have g' := runJni_grows g.inv h3
    refine ((jni_byMem inv h1).mono fun o ho => ho.mono g'.names fun y hy => ?_).trans
      ((ih g.inv h3).mono fun o ho => ho.mono (fun _ _ hc => hc) fun y hy => List.mem_cons_of_mem _ hy)
    rw [List.mem_singleton.1 hy]
    exact List.mem_cons_self ..

/-- A call in the middle of a history. -/
theorem runJni_split {vm vm2 : Vm} {pre post : List (Nat × JniOp)} {t : Nat} {op : JniOp} {as : List JniAnswer}
    (h : runJni vm (pre ++ (t, op) :: post) = .ok (vm2, as)) :
    ∃ vm0 vm1 bs a cs, runJni vm pre = .ok (vm0, bs) ∧ op.run vm0 t = .ok (vm1, a) ∧
      runJni vm1 post = .ok (vm2, cs) := by
  rw [runJni_append] at h
  obtain ⟨⟨vm0, bs⟩, h1, h2⟩ := Res.bind_eq_ok.1 h
  obtain ⟨⟨v, ds⟩, h3, h4⟩ := Res.bind_eq_ok.1 h2
  cases h4
  unfold runJni at h3
  obtain ⟨⟨vm1, a⟩, h5, h6⟩ := Res.bind_eq_ok.1 h3
  obtain ⟨⟨v', cs⟩, h7, h8⟩ := Res.bind_eq_ok.1 h6
  cases h8
  exact ⟨vm0, vm1, bs, a, cs, h1, h5, h7⟩

end Jnivm
