import Verif.Spec.HandOver
import Verif.Props.CatchProgram
import Verif.Props.Objects
/-! C90: objects that are handed from thread to thread. -/
namespace Jnivm
open Spec

theorem stillIs_of {o o' : Obj} (hs : o.kind.Same o'.kind) (hc : ∀ c, o.cls = some c → o'.cls = some c) :
    StillIs o o' := by
  refine ⟨fun h1 h2 => ?_, fun s h => ?_, fun s h => ?_, hc⟩
  · cases hk : o.kind <;> rw [hk] at hs <;> cases hk' : o'.kind <;> rw [hk'] at hs <;> simp_all [Kind.Same]
  · rw [h] at hs
    cases hk' : o'.kind <;> rw [hk'] at hs <;> simp_all [Kind.Same]
  · rw [h] at hs
    cases hk' : o'.kind <;> rw [hk'] at hs <;> simp_all [Kind.Same]

theorem runHeap_old {ops : List (Nat × HeapOp)} : ∀ {h h' : Heap}, HeapReachable h → runHeap h ops = .ok h' →
    ∀ i o', i < h.next → h'.objs i = some o' → ∃ o, h.objs i = some o ∧ o.kind.Same o'.kind ∧
      ∀ c, o.cls = some c → o'.cls = some c := by
  induction ops with
  | nil =>
    intro h h' hr hx i o' _ ho
    cases hx
    exact ⟨o', ho, .refl _, fun _ h => h⟩
  | cons x ops ih =>
    intro h h' hr hx i o' hi ho'
    obtain ⟨⟨h1, out⟩, h2, h3⟩ := Res.bind_eq_ok.1 hx
    have s := runStep hr.inv.toPre h2
    obtain ⟨o1, ho1, hs1, hc1⟩ := ih (hr.step h2) h3 i o' (Nat.lt_of_lt_of_le hi s.next) ho'
    obtain ⟨o, ho, hs, hc⟩ := s.old i o1 hi ho1
    exact ⟨o, ho, hs.trans hs1, fun c h => hc1 c (hc c h)⟩

/-- What a history leaves of an object that is alive afterwards. -/
theorem jni_old {vm vm' : Vm} (hr : JniReachable vm) {ops : List (Nat × JniOp)} {as : List JniAnswer}
    (hx : runJni vm ops = .ok (vm', as)) {i : Nat} {o o' : Obj} (ho : vm.heap.objs i = some o)
    (ho' : vm'.heap.objs i = some o') : StillIs o o' := by
  obtain ⟨hops, hh, -⟩ := (runJni_grows hr.jniInv hx).heap
  obtain ⟨o1, h1, h2, h3⟩ := runHeap_old hr.jniInv.heap hh i o' (hr.jniInv.heap.inv.toPre.bound _ _ ho) ho'
  rw [ho] at h1
  cases h1
  exact stillIs_of h2 h3

theorem denotes_live {h : Heap} {r : Option Nat} {i : Nat} (hd : Denotes h r (some i)) : Live h i := by
  generalize hx : some i = x at hd
  induction hd with
  | direct ho _ => cases hx; exact ⟨_, ho⟩
  | global _ _ _ ih => exact ih hx
  | weak _ _ _ ih => exact ih hx
  | null => cases hx
  | cleared => cases hx

/-- `NewLocalRef` of a reference to a live object. -/
theorem newLocalRef_step {vm : Vm} (hr : JniReachable vm) {u : Nat} {env : Env} (he : vm.heap.envs u = some env)
    {r : Option Nat} {i : Nat} (hd : Denotes vm.heap r (some i)) :
    ∃ vm', (JniOp.heap (.newLocalRef r)).run vm u = .ok (vm', .out (.ref (some i))) ∧ HasLocal vm'.heap u i ∧
      JniReachable vm' := by
  obtain ⟨f, fs, hf⟩ : ∃ f fs, env.frames = f :: fs := by
    cases hf : env.frames with
    | nil => exact absurd hf (hr.jniInv.heap.inv.toPre.frames _ _ he)
    | cons f fs => exact ⟨f, fs, rfl⟩
  have hx : (HeapOp.newLocalRef r).run vm.heap u =
      .ok ((vm.heap.setEnv u { env with frames := (f ++ [i]) :: fs }).collect, .ref (some i)) := by
    rw [HeapOp.run, Heap.exec_of_body he, HeapOp.body, Heap.newLocalRef,
      (Heap.denote_iff hr.jniInv.heap.inv.toPre).2 hd]
    simp only [Res.bind_ok, Heap.pushLocal, Heap.env_ok.2 he, hf, outRef]
  obtain ⟨vm', h1, h2, h3⟩ := heap_call_step hr he hx
  refine ⟨vm', h1, ?_, h3⟩
  rw [h2]
  exact ⟨{ env with frames := (f ++ [i]) :: fs }, by rw [Heap.collect_envs]; simp [Heap.setEnv], f ++ [i], by simp,
    by simp⟩

/-- C90: handing over.  A thread makes a global reference to an object.  Then any calls follow on any threads, which may
end the local references of the thread and the thread itself, but do not delete the global reference.  Then any attached
thread gets a local reference to that very object from the global one, and the object is what it was. -/
theorem global_hands_over {vm vm1 vm2 : Vm} (hr : JniReachable vm) {t : Nat} {r : Option Nat} {i g : Nat}
    (hd : Denotes vm.heap r (some i))
    (hg : (JniOp.heap (.newGlobalRef r)).run vm t = .ok (vm1, .out (.ref (some g))))
    {ops : List (Nat × JniOp)} {as : List JniAnswer} (hops : runJni vm1 ops = .ok (vm2, as))
    (hno : ∀ u, (u, .heap (.deleteGlobalRef (some g))) ∉ ops) {u : Nat} {env : Env} (he : vm2.heap.envs u = some env) :
    ∃ vm3 o o3, (JniOp.heap (.newLocalRef (some g))).run vm2 u = .ok (vm3, .out (.ref (some i))) ∧
      HasLocal vm3.heap u i ∧ vm.heap.objs i = some o ∧ vm3.heap.objs i = some o3 ∧ StillIs o o3 := by
  have hr1 : JniReachable vm1 := runJni_reachable hr (ops := [(t, .heap (.newGlobalRef r))])
    (as := [.out (.ref (some g))]) (by simp only [runJni, hg, Res.bind_ok])
  have hr2 : JniReachable vm2 := runJni_reachable hr1 hops
  obtain ⟨hb, hne⟩ := run_body hg
  obtain ⟨e, het⟩ := hne rfl
  obtain ⟨⟨v, out⟩, hc, hv⟩ := Res.bind_eq_ok.1 hb
  cases hv
  have hx := (heapCall_ok hc).1
  obtain ⟨h1, hx1, hcol⟩ := Heap.run_ok hx
  have eff := (Heap.effect_exec hr.jniInv.heap.inv.toPre het hx1 (by simp)).2
  obtain ⟨x, hdx, hm⟩ : ∃ x, vm.heap.denote r = .ok x ∧ _ := eff
  have hdx' := (Heap.denote_iff hr.jniInv.heap.inv.toPre).2 hd
  rw [hdx] at hdx'
  cases hdx'
  obtain ⟨g', hg', hgl, -, o, ho, hk⟩ := hm
  cases hg'
  have hgl1 : g ∈ vm1.heap.globals := by
    rw [hcol, (Heap.collect_rest h1).globals, hgl]
    simp
  have ho1 : ∃ o, vm1.heap.objs g = some o ∧ o.kind = .global i := by
    obtain ⟨o', ho'⟩ := hr1.jniInv.heap.inv.roots g (Heap.mem_roots.2 (.inl hgl1))
    rw [hcol] at ho' ⊢
    have := Heap.collect_sub ho'
    rw [ho] at this
    cases this
    exact ⟨o, ho', hk⟩
  obtain ⟨hops', hh, hall⟩ := (runJni_grows hr1.jniInv hops).heap
  obtain ⟨-, hd2, -⟩ := global_ref_keeps_alive hr1.jniInv.heap hgl1 ho1 (ops := hops') (fun x hx he => by
    obtain ⟨⟨u, y⟩, hy, -, h1 | ⟨m, h1⟩ | ⟨m, h1⟩⟩ := hall x hx
    · dsimp only at h1
      rw [h1, he] at hy
      exact hno u hy
    · rw [h1] at he; cases he
    · rw [h1] at he; cases he) hh
  obtain ⟨vm3, h3, hl3, hr3⟩ := newLocalRef_step hr2 he hd2
  obtain ⟨oi, hoi⟩ : Live vm.heap i := denotes_live hd
  obtain ⟨e3, he3, hin⟩ := hl3
  obtain ⟨o3, ho3⟩ := hr3.jniInv.heap.inv.toPre.rootsEnv he3 (.inl hin)
  have hall3 : runJni vm ((t, .heap (.newGlobalRef r)) :: (ops ++ [(u, .heap (.newLocalRef (some g)))])) =
      .ok (vm3, .out (.ref (some g)) :: (as ++ [.out (.ref (some i))])) := by
    simp only [runJni, hg, Res.bind_ok, runJni_append, hops, h3]
  exact ⟨vm3, oi, o3, h3, ⟨e3, he3, hin⟩, hoi, ho3, jni_old hr hall3 hoi ho3⟩

/-- C90: handing over by a weak global reference.  A thread that gets it has the very object if it is still alive, and null
otherwise. -/
theorem weak_hands_over {vm vm1 vm2 : Vm} (hr : JniReachable vm) {t : Nat} {r : Option Nat} {i w : Nat}
    (hd : Denotes vm.heap r (some i))
    (hw : (JniOp.heap (.newWeakGlobalRef r)).run vm t = .ok (vm1, .out (.ref (some w))))
    {ops : List (Nat × JniOp)} {as : List JniAnswer} (hops : runJni vm1 ops = .ok (vm2, as))
    (hno : ∀ u, (u, .heap (.deleteWeakGlobalRef (some w))) ∉ ops) {u : Nat} {env : Env}
    (he : vm2.heap.envs u = some env) :
    (Live vm2.heap i → ∃ vm3 o o3, (JniOp.heap (.newLocalRef (some w))).run vm2 u = .ok (vm3, .out (.ref (some i))) ∧
      HasLocal vm3.heap u i ∧ vm.heap.objs i = some o ∧ vm3.heap.objs i = some o3 ∧ StillIs o o3) ∧
    (¬ Live vm2.heap i → ∃ vm3, (JniOp.heap (.newLocalRef (some w))).run vm2 u = .ok (vm3, .out (.ref none))) := by
  have hr1 : JniReachable vm1 := runJni_reachable hr (ops := [(t, .heap (.newWeakGlobalRef r))])
    (as := [.out (.ref (some w))]) (by simp only [runJni, hw, Res.bind_ok])
  have hr2 : JniReachable vm2 := runJni_reachable hr1 hops
  obtain ⟨⟨v, out⟩, hc, hv⟩ := Res.bind_eq_ok.1 (run_body hw).1
  cases hv
  obtain ⟨hops', hh, hall⟩ := (runJni_grows hr1.jniInv hops).heap
  obtain ⟨-, hden, -, -, hloc⟩ := weak_ref_history hr.jniInv.heap hd (heapCall_ok hc).1 (ops := hops') (fun x hx he => by
    obtain ⟨⟨u, y⟩, hy, -, h1 | ⟨m, h1⟩ | ⟨m, h1⟩⟩ := hall x hx
    · dsimp only at h1
      rw [h1, he] at hy
      exact hno u hy
    · rw [h1] at he; cases he
    · rw [h1] at he; cases he) hh
  refine ⟨fun hl => ?_, fun hl => ?_⟩
  · obtain ⟨vm3, h3, hl3, hr3⟩ := newLocalRef_step hr2 he ((hden i).2 ⟨rfl, hl⟩)
    obtain ⟨oi, hoi⟩ : Live vm.heap i := denotes_live hd
    obtain ⟨e3, he3, hin⟩ := hl3
    obtain ⟨o3, ho3⟩ := hr3.jniInv.heap.inv.toPre.rootsEnv he3 (.inl hin)
    have hall3 : runJni vm ((t, .heap (.newWeakGlobalRef r)) :: (ops ++ [(u, .heap (.newLocalRef (some w)))])) =
        .ok (vm3, .out (.ref (some w)) :: (as ++ [.out (.ref (some i))])) := by
      simp only [runJni, hw, Res.bind_ok, runJni_append, hops, h3]
    exact ⟨vm3, oi, o3, h3, ⟨e3, he3, hin⟩, hoi, ho3, jni_old hr hall3 hoi ho3⟩
  · obtain ⟨h3, x, hx, -, hn⟩ := hloc u env he
    cases hn hl
    obtain ⟨vm3, hrun, -⟩ := heap_call_step hr2 he hx
    exact ⟨vm3, hrun⟩

theorem Along.of_all {P : Heap → Nat → HeapOp → Prop} {ops : List (Nat × HeapOp)}
    (hp : ∀ x ∈ ops, ∀ h, P h x.1 x.2) : ∀ h, Along P h ops := by
  induction ops with
  | nil => intro h; exact True.intro
  | cons x ops ih =>
    intro h
    exact ⟨hp x (List.mem_cons_self ..) h, fun h' _ _ => ih (fun y hy => hp y (List.mem_cons_of_mem _ hy)) h'⟩

/-- One call keeps an element that it does not store into. -/
theorem slot_step {vm vm' : Vm} (inv : JniInv vm) {t : Nat} {op : JniOp} {a : JniAnswer}
    (h : op.run vm t = .ok (vm', a)) {x n : Nat} {v : Option Nat} (hs : SlotIs vm.heap x n v)
    (hk : SparesElement x n vm op) (hl : Live vm'.heap x) : SlotIs vm'.heap x n v := by
  by_cases hop : ∃ o, op = .heap o
  · obtain ⟨o, rfl⟩ := hop
    obtain ⟨⟨w, out⟩, hc, hv⟩ := Res.bind_eq_ok.1 (run_body h).1
    cases hv
    refine slot_kept inv.heap hs (ops := [(t, o)]) ⟨fun a i v ho hd => hk a i v (by rw [ho]) hd, fun _ _ _ => True.intro⟩
      ?_ hl
    simp only [runHeap, (heapCall_ok hc).1, Res.bind_ok]
  · obtain ⟨hops, hh, hall⟩ := (jni_grows inv h).heap
    refine slot_kept inv.heap hs (Along.of_all (fun y hy h a i v ho hd => ?_) _) hh hl
    obtain ⟨-, h1 | ⟨m, h1⟩ | ⟨m, h1⟩⟩ := hall y hy
    · exact absurd ⟨_, h1⟩ hop
    · rw [h1] at ho; cases ho
    · rw [h1] at ho; cases ho

theorem slot_steps {ops : List (Nat × JniOp)} : ∀ {vm vm' : Vm} {as : List JniAnswer}, JniInv vm →
    runJni vm ops = .ok (vm', as) → ∀ {x n : Nat} {v : Option Nat}, x < vm.heap.next →
    (Live vm.heap x → SlotIs vm.heap x n v) → AlongJni (SparesElement x n) vm ops → Live vm'.heap x →
    SlotIs vm'.heap x n v := by
  induction ops with
  | nil => intro vm vm' as inv h x n v _ hs _ hl; cases h; exact hs hl
  | cons y ops ih =>
    intro vm vm' as inv h x n v hlt hs hk hl
    obtain ⟨t, op⟩ := y
    obtain ⟨⟨vm1, a⟩, h1, h2⟩ := Res.bind_eq_ok.1 h
    obtain ⟨⟨vm2, as'⟩, h3, h4⟩ := Res.bind_eq_ok.1 h2
    cases h4
    have g := jni_grows inv h1
    obtain ⟨hops, hh, -⟩ := g.heap
    have hnext := (runHeap_classes inv.heap hh).2.1
    refine ih g.inv h3 (Nat.lt_of_lt_of_le hlt hnext) (fun hl1 => ?_) (hk.2 _ _ h1) hl
    obtain ⟨o1, ho1⟩ := hl1
    obtain ⟨o, ho, -⟩ := runHeap_old inv.heap hh x o1 hlt ho1
    exact slot_step inv h1 (hs ⟨o, ho⟩) hk.1 ⟨o1, ho1⟩

/-- C90: handing over by an array.  A thread stores an object, or null, into an array.  After any calls on any threads that do
not store there again, any attached thread that still has some reference to the array gets that very object from it, with
a local reference. -/
theorem array_hands_over {vm vm1 vm2 : Vm} (hr : JniReachable vm) {t x : Nat} {a v y : Option Nat} {i : Int}
    {b0 : JniAnswer} (ha : Denotes vm.heap a (some x)) (hv : Denotes vm.heap v y)
    (hset : (JniOp.heap (.setObjectArrayElement a i v)).run vm t = .ok (vm1, b0))
    {ops : List (Nat × JniOp)} {as : List JniAnswer} (hops : runJni vm1 ops = .ok (vm2, as))
    (hk : AlongJni (SparesElement x i.toNat) vm1 ops) {u : Nat} {env : Env} (he : vm2.heap.envs u = some env)
    {b : Option Nat} (hb : Denotes vm2.heap b (some x)) :
    ∃ vm3, (JniOp.heap (.getObjectArrayElement b i)).run vm2 u = .ok (vm3, .out (.ref y)) ∧
      ∀ z, y = some z → HasLocal vm3.heap u z ∧ Live vm3.heap z := by
  have hr1 : JniReachable vm1 := runJni_reachable hr (ops := [(t, .heap (.setObjectArrayElement a i v))])
    (as := [b0]) (by simp only [runJni, hset, Res.bind_ok])
  have hr2 : JniReachable vm2 := runJni_reachable hr1 hops
  obtain ⟨⟨w, out⟩, hc, hw⟩ := Res.bind_eq_ok.1 (run_body hset).1
  cases hw
  have hx1 := (heapCall_ok hc).1
  have hp := hr.jniInv.heap.inv.toPre
  obtain ⟨ox, hox⟩ := denotes_live ha
  have hlt : x < vm1.heap.next := Nat.lt_of_lt_of_le (hp.bound x ox hox) (runStep hp hx1).next
  have hslot : 0 ≤ i ∧ (Live vm1.heap x → SlotIs vm1.heap x i.toNat y) := by
    have hl2 := denotes_live hb
    obtain ⟨o2, ho2⟩ := hl2
    obtain ⟨hops', hh, -⟩ := (runJni_grows hr1.jniInv hops).heap
    obtain ⟨o1, ho1, -⟩ := runHeap_old hr1.jniInv.heap hh x o2 hlt ho2
    obtain ⟨h0, hs, -⟩ := set_slot hr.jniInv.heap ha hv hx1 (ops := []) True.intro rfl ⟨o1, ho1⟩
    exact ⟨h0, fun _ => hs⟩
  have hs2 := slot_steps hr1.jniInv hops hlt hslot.2 hk (denotes_live hb)
  obtain ⟨h3, hx3⟩ := get_slot hr2.jniInv.heap he hb hslot.1 hs2
  obtain ⟨vm3, hrun3, hvm3, hr3⟩ := heap_call_step hr2 he hx3
  refine ⟨vm3, hrun3, fun z hz => ?_⟩
  subst hz
  obtain ⟨e3, he3, hf3, _⟩ := heap_effect hr2.jniInv.heap he hx3 (by simp)
  have hf3 : e3.frames = Heap.addFront [z] env.frames := hf3
  rw [← hvm3] at he3
  have hin : ∃ f ∈ e3.frames, z ∈ f := by
    rw [hf3]
    cases hfr : env.frames with
    | nil => exact absurd hfr (hr2.jniInv.heap.inv.toPre.frames _ _ he)
    | cons f fs => exact ⟨f ++ [z], by simp [Heap.addFront], by simp⟩
  exact ⟨⟨e3, he3, hin⟩, hr3.jniInv.heap.inv.toPre.rootsEnv he3 (.inl hin)⟩

/-- Is the answer this reference? -/
def isRef (g : Nat) : JniAnswer → Bool
  | .out (.ref (some x)) => x == g
  | _ => false

theorem isRef_eq {g : Nat} {a : JniAnswer} (h : isRef g a = true) : a = .out (.ref (some g)) := by
  unfold isRef at h
  split at h
  · simp_all
  · cases h

/-- Thread 0 deletes its local reference and detaches; thread 1 attaches. -/
def sampleHandOver : List (Nat × JniOp) :=
  [(0, .heap (.deleteLocalRef (some 9))), (0, .heap .detach), (1, .heap .attach)]

/-- Sample for `global_hands_over`. -/
example : ∃ vm vm1 vm2 as env, JniReachable vm ∧ Denotes vm.heap (some 9) (some 9) ∧
    (JniOp.heap (.newGlobalRef (some 9))).run vm 0 = .ok (vm1, .out (.ref (some 10))) ∧
    runJni vm1 sampleHandOver = .ok (vm2, as) ∧ (∀ u, (u, .heap (.deleteGlobalRef (some 10))) ∉ sampleHandOver) ∧
    vm2.heap.envs 1 = some env := by
  obtain ⟨vm, -, -, hr, hp⟩ := jniReachable_of (ops := [(0, .heap (.newObject none))]) (p := fun vm _ =>
    decide (vm.heap.denote (some 9) = .ok (some 9)) &&
    ((JniOp.heap (.newGlobalRef (some 9))).run vm 0).holds fun (y : Vm × JniAnswer) => isRef 10 y.2 &&
      (runJni y.1 sampleHandOver).holds fun (z : Vm × List JniAnswer) => (z.1.heap.envs 1).isSome) (by decide +kernel)
  simp only [Bool.and_eq_true, decide_eq_true_eq, Res.holds_iff] at hp
  obtain ⟨hd, ⟨vm1, a⟩, h1, ha, ⟨vm2, as⟩, h2, h3⟩ := hp
  cases isRef_eq ha
  obtain ⟨env, he⟩ := Option.isSome_iff_exists.1 h3
  exact ⟨vm, vm1, vm2, as, env, hr, (Heap.denote_iff hr.jniInv.heap.inv.toPre).1 hd, h1, h2, by simp [sampleHandOver], he⟩

/-- Samples for `weak_hands_over`: the object is released, as thread 0 deletes its reference, or not. -/
example : ∃ vm vm1 vm2 as env, JniReachable vm ∧ Denotes vm.heap (some 9) (some 9) ∧
    (JniOp.heap (.newWeakGlobalRef (some 9))).run vm 0 = .ok (vm1, .out (.ref (some 10))) ∧
    runJni vm1 sampleHandOver = .ok (vm2, as) ∧ (∀ u, (u, .heap (.deleteWeakGlobalRef (some 10))) ∉ sampleHandOver) ∧
    vm2.heap.envs 1 = some env ∧ ¬ Live vm2.heap 9 ∧
    ∃ vm2' as' env', runJni vm1 (sampleHandOver.drop 2) = .ok (vm2', as') ∧ vm2'.heap.envs 1 = some env' ∧
      Live vm2'.heap 9 := by
  obtain ⟨vm, -, -, hr, hp⟩ := jniReachable_of (ops := [(0, .heap (.newObject none))]) (p := fun vm _ =>
    decide (vm.heap.denote (some 9) = .ok (some 9)) &&
    ((JniOp.heap (.newWeakGlobalRef (some 9))).run vm 0).holds fun (y : Vm × JniAnswer) => isRef 10 y.2 &&
      ((runJni y.1 sampleHandOver).holds fun (z : Vm × List JniAnswer) =>
        (z.1.heap.envs 1).isSome && (z.1.heap.objs 9).isNone) &&
      (runJni y.1 (sampleHandOver.drop 2)).holds fun (z : Vm × List JniAnswer) =>
        (z.1.heap.envs 1).isSome && (z.1.heap.objs 9).isSome) (by decide +kernel)
  simp only [Bool.and_eq_true, decide_eq_true_eq, Res.holds_iff, Option.isNone_iff_eq_none] at hp
  obtain ⟨hd, ⟨vm1, a⟩, h1, ⟨ha, ⟨vm2, as⟩, h2, h3, h4⟩, ⟨vm2', as'⟩, h5, h6, h7⟩ := hp
  cases isRef_eq ha
  obtain ⟨env, he⟩ := Option.isSome_iff_exists.1 h3
  obtain ⟨env', he'⟩ := Option.isSome_iff_exists.1 h6
  refine ⟨vm, vm1, vm2, as, env, hr, (Heap.denote_iff hr.jniInv.heap.inv.toPre).1 hd, h1, h2, by simp [sampleHandOver],
    he, ?_, vm2', as', env', h5, he', Option.isSome_iff_exists.1 h7⟩
  rintro ⟨o, ho⟩
  rw [h4] at ho
  cases ho

/-- Thread 0 deletes its reference to the object and stores into the other element, makes a global reference to the array,
and detaches; thread 1 attaches. -/
def sampleArrayHandOver : List (Nat × JniOp) :=
  [(0, .heap (.deleteLocalRef (some 9))), (0, .heap (.setObjectArrayElement (some 11) 0 (some 11))),
    (0, .heap (.newGlobalRef (some 11))), (0, .heap .detach), (1, .heap .attach)]

/-- Sample for `array_hands_over`: the object 9 is stored in the array 11. -/
example : ∃ vm vm1 vm2 b0 as env b, JniReachable vm ∧ Denotes vm.heap (some 11) (some 11) ∧
    Denotes vm.heap (some 9) (some 9) ∧
    (JniOp.heap (.setObjectArrayElement (some 11) 1 (some 9))).run vm 0 = .ok (vm1, b0) ∧
    runJni vm1 sampleArrayHandOver = .ok (vm2, as) ∧
    AlongJni (SparesElement 11 (1 : Int).toNat) vm1 sampleArrayHandOver ∧ vm2.heap.envs 1 = some env ∧ b ≠ 11 ∧
    Denotes vm2.heap (some b) (some 11) := by
  obtain ⟨vm, -, -, hr, hp⟩ := jniReachable_of (ops := [(0, .heap (.newObject none)),
      (0, .heap (.newObjectArray 2 "[LA;".toList none))]) (p := fun vm _ =>
    decide (vm.heap.denote (some 11) = .ok (some 11)) && decide (vm.heap.denote (some 9) = .ok (some 9)) &&
    ((JniOp.heap (.setObjectArrayElement (some 11) 1 (some 9))).run vm 0).holds fun (y : Vm × JniAnswer) =>
      (runJni y.1 sampleArrayHandOver).holds fun (z : Vm × List JniAnswer) =>
        (z.1.heap.envs 1).isSome && decide (z.1.heap.denote (some 12) = .ok (some 11))) (by decide +kernel)
  simp only [Bool.and_eq_true, decide_eq_true_eq, Res.holds_iff] at hp
  obtain ⟨⟨hd, hd'⟩, ⟨vm1, a⟩, h1, ⟨vm2, as⟩, h2, h3, h4⟩ := hp
  obtain ⟨env, he⟩ := Option.isSome_iff_exists.1 h3
  have hr1 : JniReachable vm1 := runJni_reachable hr (ops := [(0, .heap (.setObjectArrayElement (some 11) 1 (some 9)))])
    (as := [a]) (by simp only [runJni, h1, Res.bind_ok])
  have hp := hr.jniInv.heap.inv.toPre
  refine ⟨vm, vm1, vm2, a, as, env, 12, hr, (Heap.denote_iff hp).1 hd, (Heap.denote_iff hp).1 hd', h1, h2, ?_, he,
    by decide, (Heap.denote_iff (runJni_reachable hr1 h2).jniInv.heap.inv.toPre).1 h4⟩
  refine ⟨?_, fun _ _ _ => ⟨?_, fun _ _ _ => ⟨?_, fun _ _ _ => ⟨?_, fun _ _ _ => ⟨?_, fun _ _ _ => True.intro⟩⟩⟩⟩⟩ <;>
    · intro a i v h _
      cases h <;> decide

end Jnivm
