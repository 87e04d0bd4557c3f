import Verif.Props.SafeLru
import Verif.Proofs.LruTable

/-! # C156: a concurrent cache used as a table -/

namespace Pluto.Props
open Pluto.SafeLru Pluto.Spec.Lru
open Pluto.Lru (Faults noFaults table_result first_append first_mem first_isSome)
variable {K V : Type} [DecidableEq K] [DecidableEq V]

/-- The program only adds to the cache and reads from it, nothing throws, and there is room for all keys it adds. -/
structure Table (n : Nat) (tr : List (Event K V)) : Prop where
  faults : ∀ i f c, Event.invoke i f c ∈ tr → f = noFaults
  adds : ∀ i f c, Event.invoke i f c ∈ tr → Adds c
  room : ∃ ks : List K, ks.length ≤ n ∧ ∀ i f k v, Event.invoke i f (.insert k v) ∈ tr → k ∈ ks

/-- C156. The calls take effect one after the other; `insert` returns true if it is the first one of its key, and the others
return the value of the first `insert`. -/
theorem C156_table {n : Nat} {tr : List (Event K V)} {s : Sys K V} (h : Exec n tr s) (ht : Table n tr) :
    ∃ lin, Linearization tr lin ∧ ∀ p op q, lin = p ++ op :: q →
      (∀ k v, op.c = .insert k v → op.o = .ok (.bool (first k (p.map (·.c))).isNone)) ∧
      (∀ k, op.c = .get k → op.o = .ok (.value (first k (p.map (·.c))))) ∧
      (∀ k, op.c = .contains k → op.o = .ok (.bool (first k (p.map (·.c))).isSome)) := by
  obtain ⟨lin, hl, ho⟩ := C09_linearizable n tr s h ht.faults
  refine ⟨lin, hl, ?_⟩
  rintro p op q rfl
  obtain ⟨ks, hn, hks⟩ := ht.room
  have ha : ∀ c ∈ (p ++ op :: q).map (·.c), Adds c := by
    intro c hc
    obtain ⟨x, hx, rfl⟩ := List.mem_map.1 hc
    exact ht.adds _ _ _ (hl.invoked x hx)
  have hk : ∀ k v, Call.insert k v ∈ (p ++ op :: q).map (·.c) → k ∈ ks := by
    intro k v hc
    obtain ⟨x, hx, e⟩ := List.mem_map.1 hc
    have := hl.invoked x hx
    rw [e] at this
    exact hks _ _ _ _ this
  rw [List.map_append, List.map_cons] at ha hk
  obtain ⟨r, hr, h1, h2, h3⟩ := table_result hn (p.map (·.c)) (q.map (·.c)) op.c ha hk
  have hop : op.o = .ok r := by
    have := congrArg (fun l => l[p.length]?) ho
    simp only [List.map_append, List.map_cons, List.getElem?_map] at this
    rw [List.length_map] at hr
    rw [hr] at this
    simpa using this
  rw [hop]
  exact ⟨fun k v e => by rw [h1 k v e], fun k e => by rw [h2 k e], fun k e => by rw [h3 k e]⟩

/-- A returned call in a linearization. -/
theorem op_of {n : Nat} {tr : List (Event K V)} {s : Sys K V} (h : Exec n tr s) (ht : Table n tr) {lin : List (Op K V)}
    (hl : Linearization tr lin) {i : Nat} {f : Faults} {c : Call K V} {o : Out (Ret V)} (hi : Event.invoke i f c ∈ tr)
    (hr : Event.ret i o ∈ tr) : ∃ op ∈ lin, op.id = i ∧ op.c = c ∧ op.o = o := by
  obtain ⟨op, hop, e1, e2⟩ := hl.returned i o hr
  have hb : ∀ i f c, Event.invoke i f c ∈ tr → Pluto.Lru.Benign f c := by
    intro i f c hm
    rw [ht.faults i f c hm]
    cases c <;> first | trivial | exact fun _ => rfl
  obtain ⟨lin', m, hinv⟩ := exec_inv h (C09_no_undefined_behaviour n tr s h hb)
  have := hl.invoked op hop
  rw [e1] at this
  exact ⟨op, hop, e1, (hinv.invokedUnique i _ _ _ _ this hi).2, e2⟩

/-- C156. Of all calls of `insert` with the same key, in any number of threads, at most one returns true. -/
theorem C156_once {n : Nat} {tr : List (Event K V)} {s : Sys K V} (h : Exec n tr s) (ht : Table n tr) {i j : Nat}
    {f g : Faults} {k : K} {v w : V} (hi : Event.invoke i f (.insert k v) ∈ tr) (hj : Event.invoke j g (.insert k w) ∈ tr)
    (hi' : Event.ret i (.ok (.bool true)) ∈ tr) (hj' : Event.ret j (.ok (.bool true)) ∈ tr) : i = j := by
  obtain ⟨lin, hl, hc⟩ := C156_table h ht
  obtain ⟨a, ha, rfl, a1, a2⟩ := op_of h ht hl hi hi'
  obtain ⟨b, hb, rfl, b1, b2⟩ := op_of h ht hl hj hj'
  by_contra hne
  rcases before_or ha hb (fun e => hne (e ▸ rfl)) with ⟨p, q, e, hm⟩ | ⟨p, q, e, hm⟩
  · have := (hc p a q e).1 k v a1
    rw [a2] at this
    have hs := first_isSome (List.mem_map.2 ⟨b, hm, b1⟩ : Call.insert k w ∈ p.map (·.c))
    rw [← Option.not_isNone] at hs
    simp only [Out.ok.injEq, Ret.bool.injEq] at this
    rw [← this] at hs
    cases hs
  · have := (hc p b q e).1 k w b1
    rw [b2] at this
    have hs := first_isSome (List.mem_map.2 ⟨a, hm, a1⟩ : Call.insert k v ∈ p.map (·.c))
    rw [← Option.not_isNone] at hs
    simp only [Out.ok.injEq, Ret.bool.injEq] at this
    rw [← this] at hs
    cases hs

/-- C156. All threads see the same value of a key: there is one, given by a call of `insert`, that every `get` that returns true
reads and that every `insert` that returns true has stored. -/
theorem C156_one_value {n : Nat} {tr : List (Event K V)} {s : Sys K V} (h : Exec n tr s) (ht : Table n tr) :
    ∃ val : K → Option V, (∀ k v, val k = some v → ∃ i f, Event.invoke i f (.insert k v) ∈ tr) ∧
      (∀ i f k v, Event.invoke i f (.get k) ∈ tr → Event.ret i (.ok (.value (some v))) ∈ tr → val k = some v) ∧
      (∀ i f k v, Event.invoke i f (.insert k v) ∈ tr → Event.ret i (.ok (.bool true)) ∈ tr → val k = some v) := by
  obtain ⟨lin, hl, hc⟩ := C156_table h ht
  refine ⟨fun k => first k (lin.map (·.c)), ?_, ?_, ?_⟩
  · intro k v e
    obtain ⟨op, hop, e⟩ := List.mem_map.1 (first_mem e)
    have := hl.invoked op hop
    rw [e] at this
    exact ⟨_, _, this⟩
  · intro i f k v hi hi'
    obtain ⟨a, ha, rfl, a1, a2⟩ := op_of h ht hl hi hi'
    obtain ⟨p, q, rfl⟩ := List.append_of_mem ha
    have := (hc p a q rfl).2.1 k a1
    rw [a2] at this
    simp only [Out.ok.injEq, Ret.value.injEq] at this
    show first k ((p ++ a :: q).map (·.c)) = _
    rw [List.map_append, first_append, ← this]
    rfl
  · intro i f k v hi hi'
    obtain ⟨a, ha, rfl, a1, a2⟩ := op_of h ht hl hi hi'
    obtain ⟨p, q, rfl⟩ := List.append_of_mem ha
    have := (hc p a q rfl).1 k v a1
    rw [a2] at this
    simp only [Out.ok.injEq, Ret.bool.injEq] at this
    show first k ((p ++ a :: q).map (·.c)) = _
    rw [List.map_append, first_append, Option.isNone_iff_eq_none.1 this.symm, List.map_cons, a1]
    simp [first]

/-- C156. After an `insert` has returned, whatever it returned, every later `get` of its key returns true. -/
theorem C156_later {n : Nat} {tr : List (Event K V)} {s : Sys K V} (h : Exec n tr s) (ht : Table n tr) {i j : Nat}
    {f g : Faults} {k : K} {v : V} {o o' : Out (Ret V)} (hi : Event.invoke i f (.insert k v) ∈ tr)
    (hs : [Event.ret i o, Event.invoke j g (.get k)].Sublist tr) (hj : Event.ret j o' ∈ tr) :
    ∃ w, o' = .ok (.value (some w)) := by
  obtain ⟨lin, hl, hc⟩ := C156_table h ht
  have hr : Event.ret i o ∈ tr := hs.subset (by simp)
  have hv : Event.invoke j g (.get k) ∈ tr := hs.subset (by simp)
  obtain ⟨a, ha, rfl, a1, a2⟩ := op_of h ht hl hi hr
  obtain ⟨b, hb, rfl, b1, b2⟩ := op_of h ht hl hv hj
  have ho := hl.realTime _ _ _ _ _ hs (List.mem_map.2 ⟨b, hb, rfl⟩)
  have hnd := hl.once
  obtain ⟨p, q, rfl⟩ := List.append_of_mem hb
  have hg := (hc p b q rfl).2.1 k b1
  rw [List.map_append, List.map_cons] at ho hnd
  have hm := before_of_sublist hnd ho
  obtain ⟨a', ha', e⟩ := List.mem_map.1 hm
  have haa : a' = a := by
    have hnd' := hl.once
    exact List.inj_on_of_nodup_map hnd' (List.mem_append_left _ ha') ha e
  subst haa
  have hsome := first_isSome (List.mem_map.2 ⟨a', ha', a1⟩ : Call.insert k v ∈ p.map (·.c))
  obtain ⟨w, hw⟩ := Option.isSome_iff_exists.1 hsome
  exact ⟨w, by rw [← b2, hg, hw]⟩

/-! ## Cases -/

/-- Two threads insert the same key at the same time, and one gets the value of the other. -/
def race : List (Event Nat Nat) :=
  [.invoke 0 noFaults (.insert 1 10), .invoke 1 noFaults (.insert 1 20), .acquire 1, .step 1, .step 1, .step 1, .step 1,
    .step 1, .step 1, .finish 1, .unlock 1, .acquire 0, .step 0, .finish 0, .unlock 0, .ret 0 (.ok (.bool false)),
    .ret 1 (.ok (.bool true)), .invoke 2 noFaults (.get 1), .acquire 2, .step 2, .step 2, .step 2, .finish 2, .unlock 2,
    .ret 2 (.ok (.value (some 20)))]

example : (∃ s : Sys Nat Nat, Exec 1 race s) ∧ Table 1 race := by
  refine ⟨⟨_, execOf _ _ rfl⟩, ?_, ?_, [1], by simp, ?_⟩
  · intro i f c h
    simp [race] at h
    rcases h with h | h | h <;> exact h.2.1
  · intro i f c h
    simp [race] at h
    rcases h with ⟨-, -, rfl⟩ | ⟨-, -, rfl⟩ | ⟨-, -, rfl⟩ <;> trivial
  · intro i f k v h
    simp [race] at h
    rcases h with h | h <;> simp [h]

/-- Without room for all keys a key is inserted twice. -/
example : (Pluto.Lru.calls [.insert 1 10, .insert 2 20, .insert 1 11, .get 1] (Pluto.Lru.init 1 : Pluto.Lru.State Nat Nat)).map
    (·.2) = some [.bool true, .bool true, .bool true, .value (some 11)] := by decide

end Pluto.Props
