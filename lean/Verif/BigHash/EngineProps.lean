import Verif.BigHash.Engine
import Verif.BigHash.BucketProps
import Verif.Bloom.Props
/-!
Property C23: the small-object flash engine never returns a wrong or stale value.

Specification: a trace of observed API events (newest first). `current k tr` is the value a lookup of `k` may return after `tr`;
`live k tr` is the value a lookup must return if the device read works.
-/
namespace Verif.BigHash
open Verif Mem Bloom

/-- Observed events, with their results. `calls` are the destructor callback invocations. -/
inductive Ev
  | insert (k value : List UInt8) (st : Status) (calls : List Call)
  | remove (k : List UInt8) (st : Status) (calls : List Call)
  | lookup (k : List UInt8) (st : Status)
  | corrupt (bid : Nat)
  | restart
  | reset

/-- Spec: the only value a lookup may return: that of the latest insert of this very key, if that insert succeeded and no remove of
the key (successful or not) and no reset came later. -/
def current (k : List UInt8) : List Ev → Option (List UInt8)
  | [] => none
  | .insert k' value st _ :: tr => if k' = k then (if st = .ok then some value else none) else current k tr
  | .remove k' _ _ :: tr => if k' = k then none else current k tr
  | .reset :: _ => none
  | .lookup _ _ :: tr => current k tr
  | .corrupt _ :: tr => current k tr
  | .restart :: tr => current k tr

/-- Spec: buckets that share one bit of the disabled-bucket map. -/
def sameGroup (v : Env) (k k' : List UInt8) : Prop := v.bid k / 100 = v.bid k' / 100

/-- Spec: the value a lookup must find: inserted successfully, and since then neither removed, replaced, reported to the callback,
corrupted on the device, reset, nor hit by a device error in its bucket group. -/
noncomputable def live (v : Env) (k : List UInt8) : List Ev → Option (List UInt8)
  | [] => none
  | .insert k' value st calls :: tr =>
    open Classical in
    match st with
    | .ok => if k' = k then some value else if ∃ c ∈ calls, c.hk.key = k then none else live v k tr
    | .deviceError => if sameGroup v k k' then none else live v k tr
    | _ => live v k tr
  | .remove k' st calls :: tr =>
    open Classical in
    match st with
    | .ok => if ∃ c ∈ calls, c.hk.key = k then none else live v k tr
    | .deviceError => if sameGroup v k k' then none else live v k tr
    | _ => live v k tr
  | .lookup k' st :: tr =>
    open Classical in
    match st with
    | .deviceError => if sameGroup v k k' then none else live v k tr
    | _ => live v k tr
  | .corrupt b :: tr => if v.bid k = b then none else live v k tr
  | .restart :: tr => live v k tr
  | .reset :: _ => none

/-- Spec: accepted configurations (BigHash.cpp:33-73). -/
structure Env.Ok (v : Env) : Prop where
  nb : 0 < v.numBuckets
  lo : 24 ≤ v.bucketSize
  hi : v.bucketSize < 2 ^ 32
  hash : ∀ k, v.H k < 2 ^ 64

/-- Spec: the item fits an empty bucket: 24 bytes bucket header, 4 + 16 bytes entry overhead. -/
def Fits (v : Env) (k value : List UInt8) : Prop := 24 + (4 + (16 + k.length + value.length)) ≤ v.bucketSize

/-- Spec: the Bloom filter, if any, was built with one sub-filter per bucket. -/
def BfMade (v : Env) (bf : Option BF) (nh tb : Nat) : Prop := ∀ b, bf = some b → make v.hashInt v.numBuckets nh tb = some b

/-- Spec: a bucket image the engine can tell is not one of its own: another generation, or a checksum mismatch. -/
def Foreign (v : Env) (gen : Nat) (i : Img) : Prop := i.gen ≠ gen ∨ v.cksum i.gen i.st ≠ i.checksum

/-- All executions: any sequence of operations, each with any device outcome; at any point buckets on the device may be damaged (in a
way the checksum or the generation detects), the engine may be restarted cleanly or reset (with a generation time no bucket on the
device carries). -/
inductive Reach (v : Env) (nh tb : Nat) : List Ev → Eng → Prop
  | create {bf gen dev} : BfMade v bf nh tb → (∀ b, Foreign v gen (dev b)) → Reach v nh tb [] (create bf gen dev)
  | insert {tr e k value rd wr e' st calls} : Reach v nh tb tr e → Fits v k value →
      BigHash.insert v e k value rd wr = some (e', st, calls) → Reach v nh tb (.insert k value st calls :: tr) e'
  | remove {tr e k rd wr e' st calls} : Reach v nh tb tr e → BigHash.remove v e k rd wr = (e', st, calls) →
      Reach v nh tb (.remove k st calls :: tr) e'
  | lookup {tr e k rd e' st res} : Reach v nh tb tr e → BigHash.lookup v e k rd = (e', st, res) → Reach v nh tb (.lookup k st :: tr) e'
  | corrupt {tr e b img} : Reach v nh tb tr e → Foreign v e.gen img →
      Reach v nh tb (.corrupt b :: tr) { e with dev := fun b' => if b' = b then img else e.dev b' }
  | restart {tr e bf gen gen2 e'} : Reach v nh tb tr e → BfMade v bf nh tb → (bf.isSome = e.bf.isSome) →
      recover v (BigHash.create bf gen e.dev) (persist v e) gen2 = (e', true) → Reach v nh tb (.restart :: tr) e'
  | reset {tr e gen} : Reach v nh tb tr e → (∀ b, Foreign v gen (e.dev b)) → Reach v nh tb (.reset :: tr) (BigHash.reset e gen)

/-! ### Invariant -/

theorem Foreign.rejected {v gen i} (h : Foreign v gen i) : accepted v gen i = false := by
  simp only [accepted, Bool.and_eq_false_iff, beq_eq_false_iff_ne]; exact h


structure Good (v : Env) (tr : List Ev) (bf : Option BF) (bid : Nat) (st : Store) (es : List Entry) : Prop where
  reps : Reps st es
  cap : st.cap = v.bucketSize - 24
  nodup : (es.map (·.hk)).Nodup
  key : ∀ x ∈ es, x.hk = v.hk x.hk.key ∧ v.bid x.hk.key = bid
  cur : ∀ x ∈ es, current x.hk.key tr = some x.value
  bloom : ∀ x ∈ es, bfReject v bf bid x.hk.hash = false

structure Inv (v : Env) (nh tb : Nat) (tr : List Ev) (e : Eng) : Prop where
  bf : ∀ b, e.bf = some b → WF b ∧ b.numFilters = v.numBuckets ∧ b.tableBits = tb ∧ b.seeds.length = nh
  good : ∀ bid, bid < v.numBuckets → isBucketValid e.bits bid = true → accepted v e.gen (e.dev bid) = true →
    ∃ es, Good v tr e.bf bid (e.dev bid).st es
  live : ∀ k val, live v k tr = some val → isBucketValid e.bits (v.bid k) = true ∧ accepted v e.gen (e.dev (v.bid k)) = true ∧
    bfind (e.dev (v.bid k)).st (v.hk k) = some val

theorem bid_lt {v : Env} (h : v.Ok) (k) : v.bid k < v.numBuckets := Nat.mod_lt _ h.nb

theorem bit_inj : ∀ i j : Fin 8, UInt8.ofNat (1 <<< i.val) &&& UInt8.ofNat (1 <<< j.val) ≠ 0 → i = j := by decide

theorem bitGet_set_other {m : Mem} {p i q j : Nat} (h : p + i / 8 ≠ q + j / 8 ∨ i % 8 ≠ j % 8)
    (hg : bitGet (bitSet m q j) p i = true) : bitGet m p i = true := by
  simp only [bitGet, decide_eq_true_eq] at hg ⊢
  simp only [bitSet] at hg
  split at hg
  · rename_i he
    rw [u8_nz] at hg
    obtain ⟨k, hk⟩ := hg
    simp only [UInt8.toNat_and, UInt8.toNat_or, Nat.testBit_and, Nat.testBit_or, Bool.and_eq_true, Bool.or_eq_true] at hk
    rcases hk with ⟨hk1 | hk1, hk2⟩
    · rw [u8_nz]; exact ⟨k, by simp [hk1, hk2]⟩
    · exfalso
      have h1 : bitMask j &&& bitMask i ≠ 0 := by rw [u8_nz]; exact ⟨k, by simp [hk1, hk2]⟩
      have := bit_inj ⟨j % 8, Nat.mod_lt _ (by decide)⟩ ⟨i % 8, Nat.mod_lt _ (by decide)⟩ h1
      injection this with this
      rcases h with h | h
      · exact h he
      · exact h this.symm
  · exact hg

/-- Disabling disables the bucket itself... -/
theorem disable_self (bits : Mem) (idx : Nat) : isBucketValid (disableBucket bits idx) idx = false := by
  simp only [isBucketValid, disableBucket, bitGet_set_same, Bool.not_true]

/-- ... never enables one ... -/
theorem disable_mono {bits : Mem} {idx b : Nat} (h : isBucketValid (disableBucket bits idx) b = true) : isBucketValid bits b = true := by
  simp only [isBucketValid, disableBucket, Bool.not_eq_true'] at h ⊢
  cases hc : bitGet bits (b / perBit / 8) (b / perBit % 8) with
  | false => rfl
  | true => rw [bitGet_set_mono hc] at h; cases h

/-- ... and disables no bucket outside its group. -/
theorem disable_other {bits : Mem} {idx b : Nat} (hne : b / 100 ≠ idx / 100) (h : isBucketValid bits b = true) :
    isBucketValid (disableBucket bits idx) b = true := by
  simp only [isBucketValid, disableBucket, Bool.not_eq_true'] at h ⊢
  cases hc : bitGet (bitSet bits (idx / perBit / 8) (idx / perBit % 8)) (b / perBit / 8) (b / perBit % 8) with
  | false => rfl
  | true =>
    rw [bitGet_set_other ?_ hc] at h
    · cases h
    · simp only [perBit]; omega

/-- Same group: disabled as well. -/
theorem disable_group {bits : Mem} {idx b : Nat} (he : b / 100 = idx / 100) : isBucketValid (disableBucket bits idx) b = false := by
  have := disable_self bits idx
  simp only [isBucketValid, disableBucket, perBit] at this ⊢
  rw [he]; exact this

/-! ### Bloom filter operations of the engine -/

theorem bf_geom_set {b : BF} (comb i h) : (b.set comb i h).numFilters = b.numFilters ∧ (b.set comb i h).tableBits = b.tableBits ∧
    (b.set comb i h).seeds = b.seeds ∧ (b.set comb i h).filterBytes = b.filterBytes := ⟨rfl, rfl, rfl, rfl⟩

theorem wf_of {b b' : BF} (h : WF b) (h1 : b'.numFilters = b.numFilters) (h2 : b'.tableBits = b.tableBits) (h3 : b'.seeds = b.seeds)
    (h4 : b'.filterBytes = b.filterBytes) : WF b' :=
  ⟨by rw [h2]; exact h.tb, by rw [h1]; exact h.nf, by rw [h3]; exact h.ns, by rw [h4, h3, h2]; exact h.fb⟩

theorem fold_set_geom (comb : Nat → Nat → Nat) (bid : Nat) (hs : List Nat) : ∀ b : BF,
    let b' := hs.foldl (fun b h => b.set comb bid h) b
    b'.numFilters = b.numFilters ∧ b'.tableBits = b.tableBits ∧ b'.seeds = b.seeds ∧ b'.filterBytes = b.filterBytes := by
  induction hs with
  | nil => intro b; exact ⟨rfl, rfl, rfl, rfl⟩
  | cons h hs ih => intro b; exact ih (b.set comb bid h)

/-- `set` keeps every member and adds its own. -/
theorem set_keeps {b : BF} (w : WF b) (comb i h idx key) (hi : idx < b.numFilters) (he : b.couldExist comb idx key = true ∨ (i = idx ∧ h = key)) :
    (b.set comb i h).couldExist comb idx key = true := by
  obtain ⟨b', s1, s2, s3, s4, s5, s6, s7⟩ := step_spec (comb := comb) (hashInt := id) w (.set i h)
  simp only [step, Option.some.injEq] at s1; subst s1
  exact s7 idx key hi (he.symm)

theorem clear_keeps {b : BF} (w : WF b) (comb i idx key) (hi : idx < b.numFilters) (hne : i ≠ idx) (he : b.couldExist comb idx key = true) :
    (b.clear i).couldExist comb idx key = true := by
  obtain ⟨b', s1, s2, s3, s4, s5, s6, s7⟩ := step_spec (comb := comb) (hashInt := id) w (.clear i)
  simp only [step, Option.some.injEq] at s1; subst s1
  exact s7 idx key hi ⟨hne, he⟩

theorem fold_set_keeps (comb : Nat → Nat → Nat) (bid : Nat) (hs : List Nat) : ∀ (b : BF), WF b → ∀ idx key, idx < b.numFilters →
    (b.couldExist comb idx key = true ∨ (bid = idx ∧ key ∈ hs)) → (hs.foldl (fun b h => b.set comb bid h) b).couldExist comb idx key = true := by
  induction hs with
  | nil => intro b w idx key hi he; rcases he with he | he; exact he; simp at he
  | cons h hs ih =>
    intro b w idx key hi he
    rw [List.foldl_cons]
    refine ih (b.set comb bid h) (wf_of (b' := b.set comb bid h) w rfl rfl rfl rfl) idx key hi ?_
    rcases he with he | ⟨he, hm⟩
    · exact Or.inl (set_keeps w _ _ _ _ _ hi (Or.inl he))
    · rcases List.mem_cons.1 hm with rfl | hm
      · exact Or.inl (set_keeps w _ _ _ _ _ hi (Or.inr ⟨he, rfl⟩))
      · exact Or.inr ⟨he, hm⟩

/-- Properties of the engine's filter kept by every filter operation. -/
def BfOk (v : Env) (nh tb : Nat) (bf : Option BF) : Prop :=
  ∀ b, bf = some b → WF b ∧ b.numFilters = v.numBuckets ∧ b.tableBits = tb ∧ b.seeds.length = nh

theorem bfok_map {v nh tb bf} (h : BfOk v nh tb bf) (f : BF → BF)
    (hf : ∀ b, (f b).numFilters = b.numFilters ∧ (f b).tableBits = b.tableBits ∧ (f b).seeds = b.seeds ∧ (f b).filterBytes = b.filterBytes) :
    BfOk v nh tb (bf.map f) := by
  intro b' hb'
  cases bf with
  | none => cases hb'
  | some b =>
    simp only [Option.map_some, Option.some.injEq] at hb'; subst hb'
    obtain ⟨w, h1, h2, h3⟩ := h b rfl
    obtain ⟨f1, f2, f3, f4⟩ := hf b
    exact ⟨wf_of w f1 f2 f3 f4, by rw [f1, h1], by rw [f2, h2], by rw [f3, h3]⟩

theorem bfok_set {v nh tb bf} (h : BfOk v nh tb bf) (bid hash) : BfOk v nh tb (bfSet v bf bid hash) :=
  bfok_map h _ fun _ => ⟨rfl, rfl, rfl, rfl⟩
theorem bfok_clear {v nh tb bf} (h : BfOk v nh tb bf) (bid) : BfOk v nh tb (bfClear bf bid) :=
  bfok_map h _ fun _ => ⟨rfl, rfl, rfl, rfl⟩
theorem bfok_rebuild {v nh tb bf} (h : BfOk v nh tb bf) (bid st) : BfOk v nh tb (bfRebuild v bf bid st) :=
  bfok_map h _ fun b => by
    have := fold_set_geom v.comb bid (bhashes st) (b.clear bid)
    exact this

theorem reject_set {v nh tb bf} (h : BfOk v nh tb bf) {bid hash idx key} (hi : idx < v.numBuckets)
    (he : bfReject v bf idx key = false ∨ (bid = idx ∧ hash = key)) : bfReject v (bfSet v bf bid hash) idx key = false := by
  cases bf with
  | none => rfl
  | some b =>
    obtain ⟨w, h1, _⟩ := h b rfl
    simp only [bfReject, bfSet, Option.map_some, Bool.not_eq_false'] at he ⊢
    exact set_keeps w _ _ _ _ _ (by rw [h1]; exact hi) he

theorem reject_clear {v nh tb bf} (h : BfOk v nh tb bf) {bid idx key} (hi : idx < v.numBuckets) (hne : bid ≠ idx)
    (he : bfReject v bf idx key = false) : bfReject v (bfClear bf bid) idx key = false := by
  cases bf with
  | none => rfl
  | some b =>
    obtain ⟨w, h1, _⟩ := h b rfl
    simp only [bfReject, bfClear, Option.map_some, Bool.not_eq_false'] at he ⊢
    exact clear_keeps w _ _ _ _ (by rw [h1]; exact hi) hne he

theorem reject_rebuild {v nh tb bf} (h : BfOk v nh tb bf) {bid idx key st} (hi : idx < v.numBuckets)
    (he : (bid ≠ idx ∧ bfReject v bf idx key = false) ∨ (bid = idx ∧ key ∈ bhashes st)) :
    bfReject v (bfRebuild v bf bid st) idx key = false := by
  cases bf with
  | none => rfl
  | some b =>
    obtain ⟨w, h1, _⟩ := h b rfl
    simp only [bfReject, bfRebuild, Option.map_some, Bool.not_eq_false'] at he ⊢
    refine fold_set_keeps v.comb bid (bhashes st) (b.clear bid) (wf_of (b' := b.clear bid) w rfl rfl rfl rfl) _ _ (by show idx < b.numFilters; rw [h1]; exact hi) ?_
    rcases he with ⟨h2, h3⟩ | h2
    · exact Or.inl (clear_keeps w _ _ _ _ (by rw [h1]; exact hi) h2 h3)
    · exact Or.inr h2

/-! ### Reading a bucket -/

theorem read_ok {v : Env} {nh tb tr e} (hv : v.Ok) (h : Inv v nh tb tr e) {bid} (hb : bid < v.numBuckets)
    (hval : isBucketValid e.bits bid = true) : ∃ st es, readBucket v e bid true = (e, some st) ∧ Good v tr e.bf bid st es ∧
      (accepted v e.gen (e.dev bid) = true → st = (e.dev bid).st) := by
  simp only [readBucket, Bool.not_true, Bool.false_eq_true, if_false]
  cases ha : accepted v e.gen (e.dev bid) with
  | true =>
    obtain ⟨es, g⟩ := h.good bid hb hval ha
    exact ⟨_, es, by simp, g, fun _ => rfl⟩
  | false =>
    refine ⟨Store.new (v.bucketSize - 24) (e.dev bid).st.data, [], by simp, ⟨?_, rfl, by simp, by simp, by simp, by simp⟩, by simp⟩
    have := hv.hi
    exact new_reps _ _ (by omega)

theorem read_fail (v : Env) (e : Eng) (bid : Nat) : readBucket v e bid false = ({ e with bits := disableBucket e.bits bid }, none) := rfl

/-- Weakening: the trace grew by an event that leaves `current` of the keys in this bucket alone. -/
theorem Good.trace {v tr tr' bf bid st es} (g : Good v tr bf bid st es) (h : ∀ x ∈ es, current x.hk.key tr' = current x.hk.key tr) :
    Good v tr' bf bid st es := ⟨g.reps, g.cap, g.nodup, g.key, fun x hx => by rw [h x hx]; exact g.cur x hx, g.bloom⟩

theorem Good.find_mem {v tr bf bid st es} (g : Good v tr bf bid st es) {k val} (h : bfind st (v.hk k) = some val) :
    (⟨v.hk k, val⟩ : Entry) ∈ es := by
  rw [find_spec g.reps] at h
  cases hx : es.find? (fun e => decide (e.hk = v.hk k)) with
  | none => rw [hx] at h; cases h
  | some x =>
    rw [hx] at h; simp at h
    have h1 := List.mem_of_find?_eq_some hx
    have h2 := List.find?_some hx
    simp only [decide_eq_true_eq] at h2
    rw [← h2, ← h]; exact h1

theorem Good.mem_find {v tr bf bid st es} (g : Good v tr bf bid st es) {k val} (h : (⟨v.hk k, val⟩ : Entry) ∈ es) :
    bfind st (v.hk k) = some val := by
  rw [find_spec g.reps]
  have := find_nodup g.nodup h
  simp only at this
  rw [this]; rfl

theorem hk_key (v : Env) (k) : (v.hk k).key = k := rfl

/-! ### Device error: the bucket group is disabled -/

theorem inv_disabled {v : Env} {nh tb tr e} (h : Inv v nh tb tr e) (k : List UInt8) (bf' : Option BF)
    (dev' : Nat → Img) (ev : Ev) (hbf : BfOk v nh tb bf')
    (hdev : ∀ b, b ≠ v.bid k → dev' b = e.dev b)
    (hrej : ∀ idx key, idx < v.numBuckets → v.bid k ≠ idx → bfReject v e.bf idx key = false → bfReject v bf' idx key = false)
    (hcur : ∀ k', v.bid k' ≠ v.bid k → current k' (ev :: tr) = current k' tr)
    (hlive : ∀ k', live v k' (ev :: tr) = if v.bid k' / 100 = v.bid k / 100 then none else live v k' tr) :
    Inv v nh tb (ev :: tr) { e with bits := disableBucket e.bits (v.bid k), bf := bf', dev := dev' } := by
  refine ⟨hbf, ?_, ?_⟩
  · intro bid hb hval hacc
    simp only at hval hacc ⊢
    have hne : bid ≠ v.bid k := by
      intro hc; subst hc; rw [disable_self] at hval; cases hval
    rw [hdev bid hne] at hacc ⊢
    obtain ⟨es, g⟩ := h.good bid hb (disable_mono hval) hacc
    refine ⟨es, g.reps, g.cap, g.nodup, g.key, fun x hx => ?_, fun x hx => hrej _ _ hb (Ne.symm hne) (g.bloom x hx)⟩
    rw [hcur _ (by rw [(g.key x hx).2]; exact hne)]; exact g.cur x hx
  · intro k' val hl
    rw [hlive k'] at hl
    split at hl
    · cases hl
    · rename_i hg
      obtain ⟨h1, h2, h3⟩ := h.live k' val hl
      have hne : v.bid k' ≠ v.bid k := fun hc => hg (by rw [hc])
      simp only
      rw [hdev _ hne]
      exact ⟨disable_other hg h1, h2, h3⟩

theorem live_insert_err (v : Env) (k' k value calls tr) :
    live v k' (.insert k value .deviceError calls :: tr) = if v.bid k' / 100 = v.bid k / 100 then none else live v k' tr := by
  simp only [live, sameGroup]; congr

theorem live_remove_err (v : Env) (k' k calls tr) :
    live v k' (.remove k .deviceError calls :: tr) = if v.bid k' / 100 = v.bid k / 100 then none else live v k' tr := by
  simp only [live, sameGroup]; congr

theorem live_lookup_err (v : Env) (k' k tr) :
    live v k' (.lookup k .deviceError :: tr) = if v.bid k' / 100 = v.bid k / 100 then none else live v k' tr := by
  simp only [live, sameGroup]; congr

theorem bid_ne_key {v : Env} {k k' : List UInt8} (h : v.bid k' ≠ v.bid k) : ¬ k = k' := fun hc => h (by rw [hc])

/-! ### The operations preserve the invariant -/

theorem inv_same {v : Env} {nh tb tr e} (h : Inv v nh tb tr e) (ev : Ev)
    (hcur : ∀ bid es, bid < v.numBuckets → isBucketValid e.bits bid = true → accepted v e.gen (e.dev bid) = true →
      Good v tr e.bf bid (e.dev bid).st es → ∀ x ∈ es, current x.hk.key (ev :: tr) = current x.hk.key tr)
    (hlive : ∀ k, live v k (ev :: tr) = live v k tr) : Inv v nh tb (ev :: tr) e := by
  refine ⟨h.bf, ?_, ?_⟩
  · intro bid hb hval hacc
    obtain ⟨es, g⟩ := h.good bid hb hval hacc
    exact ⟨es, g.trace (hcur bid es hb hval hacc g)⟩
  · intro k val hl; rw [hlive] at hl; exact h.live k val hl

theorem lookup_inv {v : Env} {nh tb tr e} (hv : v.Ok) (h : Inv v nh tb tr e) {k rd e' st res}
    (he : BigHash.lookup v e k rd = (e', st, res)) :
    Inv v nh tb (.lookup k st :: tr) e' ∧ (∀ val, res = some val → st = .ok ∧ current k tr = some val) ∧ (st = .ok → res ≠ none) ∧
    (res ≠ none → couldExist v e k = true) ∧
    (rd = true → ∀ val, live v k tr = some val → st = .ok ∧ res = some val ∧ couldExist v e k = true) := by
  simp only [BigHash.lookup] at he
  have hb := bid_lt hv k
  cases hval : isBucketValid e.bits (v.bid k) with
  | false =>
    rw [hval] at he
    simp only [Bool.not_false, if_true, Prod.mk.injEq] at he
    obtain ⟨rfl, rfl, rfl⟩ := he
    refine ⟨inv_same h _ (fun _ _ _ _ _ _ _ _ => rfl) (fun _ => rfl), by simp, by simp, by simp, ?_⟩
    intro _ val hl; have := (h.live k val hl).1; rw [hval] at this; cases this
  | true =>
    rw [hval] at he
    simp only [Bool.not_true, Bool.false_eq_true, if_false] at he
    cases hrej : bfReject v e.bf (v.bid k) (v.H k) with
    | true =>
      rw [hrej] at he
      simp only [if_true, Prod.mk.injEq] at he
      obtain ⟨rfl, rfl, rfl⟩ := he
      refine ⟨inv_same h _ (fun _ _ _ _ _ _ _ _ => rfl) (fun _ => rfl), by simp, by simp, by simp, ?_⟩
      intro _ val hl
      obtain ⟨h1, h2, h3⟩ := h.live k val hl
      obtain ⟨es, g⟩ := h.good _ hb h1 h2
      have := g.bloom _ (g.find_mem h3)
      simp only [Env.hk] at this
      rw [hrej] at this; cases this
    | false =>
      rw [hrej] at he
      simp only [Bool.false_eq_true, if_false] at he
      cases rd with
      | false =>
        rw [read_fail] at he
        simp only [Prod.mk.injEq] at he
        obtain ⟨rfl, rfl, rfl⟩ := he
        refine ⟨?_, by simp, by simp, by simp, by simp⟩
        exact inv_disabled h k e.bf e.dev _ h.bf (fun _ _ => rfl) (fun _ _ _ _ hr => hr) (fun _ _ => rfl) (fun k' => live_lookup_err v k' k tr)
      | true =>
        obtain ⟨s, es, r1, g, r2⟩ := read_ok hv h hb hval
        rw [r1] at he
        simp only at he
        cases hf : bfind s (v.hk k) with
        | none =>
          rw [hf] at he
          simp only [Prod.mk.injEq] at he
          obtain ⟨rfl, rfl, rfl⟩ := he
          refine ⟨inv_same h _ (fun _ _ _ _ _ _ _ _ => rfl) (fun _ => rfl), by simp, by simp, by simp, ?_⟩
          intro _ val hl
          obtain ⟨h1, h2, h3⟩ := h.live k val hl
          rw [r2 h2] at hf; rw [hf] at h3; cases h3
        | some w =>
          rw [hf] at he
          simp only [Prod.mk.injEq] at he
          obtain ⟨rfl, rfl, rfl⟩ := he
          refine ⟨inv_same h _ (fun _ _ _ _ _ _ _ _ => rfl) (fun _ => rfl), ?_, by simp, ?_, ?_⟩
          · intro val hw; injection hw with hw; subst hw
            exact ⟨rfl, g.cur _ (g.find_mem hf)⟩
          · intro _; simp only [couldExist, hrej, Bool.not_false]
          · intro _ val hl
            obtain ⟨h1, h2, h3⟩ := h.live k val hl
            rw [r2 h2] at hf; rw [hf] at h3; injection h3 with h3
            exact ⟨rfl, by rw [h3], by simp only [couldExist, hrej, Bool.not_false]⟩

theorem accepted_written (v : Env) (gen : Nat) (st : Store) : accepted v gen ⟨v.cksum gen st, gen, st⟩ = true := by simp [accepted]

theorem bhashes_mem {v tr bf bid st es} (g : Good v tr bf bid st es) {x} (hx : x ∈ es) : x.hk.hash ∈ bhashes st := by
  rw [bhashes_spec g.reps]; exact List.mem_map.2 ⟨x, hx, rfl⟩

/-- A successful write of a bucket holding `es'`. -/
theorem inv_written {v : Env} {nh tb tr e} (h : Inv v nh tb tr e) (bid : Nat) (st' : Store) (bf' : Option BF) (ev : Ev) (es' : List Entry)
    (hbf : BfOk v nh tb bf')
    (hg : Good v (ev :: tr) bf' bid st' es')
    (hval : isBucketValid e.bits bid = true)
    (hrej : ∀ idx key, idx < v.numBuckets → bid ≠ idx → bfReject v e.bf idx key = false → bfReject v bf' idx key = false)
    (hcur : ∀ k', v.bid k' ≠ bid → current k' (ev :: tr) = current k' tr)
    (hlive : ∀ k' val, v.bid k' ≠ bid → live v k' (ev :: tr) = some val → live v k' tr = some val)
    (hlive' : ∀ k' val, v.bid k' = bid → live v k' (ev :: tr) = some val → (⟨v.hk k', val⟩ : Entry) ∈ es') :
    Inv v nh tb (ev :: tr) { e with bf := bf', dev := fun b => if b = bid then ⟨v.cksum e.gen st', e.gen, st'⟩ else e.dev b } := by
  refine ⟨hbf, ?_, ?_⟩
  · intro b hb hvalb hacc
    simp only at hvalb hacc ⊢
    by_cases hc : b = bid
    · subst hc
      simp only [if_true]
      exact ⟨es', hg⟩
    · simp only [if_neg hc] at hacc ⊢
      obtain ⟨es, g⟩ := h.good b hb hvalb hacc
      refine ⟨es, g.reps, g.cap, g.nodup, g.key, fun x hx => ?_, fun x hx => hrej _ _ hb (Ne.symm hc) (g.bloom x hx)⟩
      rw [hcur _ (by rw [(g.key x hx).2]; exact hc)]; exact g.cur x hx
  · intro k' val hl
    simp only
    by_cases hc : v.bid k' = bid
    · simp only [if_pos hc, accepted_written, true_and]
      refine ⟨by rw [hc]; exact hval, ?_⟩
      exact hg.mem_find (hlive' k' val hc hl)
    · simp only [if_neg hc]
      exact h.live k' val (hlive k' val hc hl)

theorem remove_inv {v : Env} {nh tb tr e} (hv : v.Ok) (h : Inv v nh tb tr e) {k rd wr e' st calls}
    (he : BigHash.remove v e k rd wr = (e', st, calls)) : Inv v nh tb (.remove k st calls :: tr) e' := by
  simp only [BigHash.remove] at he
  have hb := bid_lt hv k
  have absent : (∀ es, isBucketValid e.bits (v.bid k) = true → accepted v e.gen (e.dev (v.bid k)) = true →
      Good v tr e.bf (v.bid k) (e.dev (v.bid k)).st es → ∀ x ∈ es, x.hk ≠ v.hk k) → Inv v nh tb (.remove k .notFound [] :: tr) e := by
    intro hno
    refine inv_same h _ ?_ (fun _ => rfl)
    intro bid es hbid hval hacc g x hx
    simp only [current]
    rw [if_neg]
    intro hc
    have h1 := g.key x hx
    rw [← hc] at h1
    obtain ⟨h1, rfl⟩ := h1
    exact hno es hval hacc g x hx h1
  cases hval : isBucketValid e.bits (v.bid k) with
  | false =>
    rw [hval] at he
    simp only [Bool.not_false, if_true, Prod.mk.injEq] at he
    obtain ⟨rfl, rfl, rfl⟩ := he
    apply absent; intro es h1; rw [hval] at h1; cases h1
  | true =>
    rw [hval] at he
    simp only [Bool.not_true, Bool.false_eq_true, if_false] at he
    cases hrej : bfReject v e.bf (v.bid k) (v.H k) with
    | true =>
      rw [hrej] at he
      simp only [if_true, Prod.mk.injEq] at he
      obtain ⟨rfl, rfl, rfl⟩ := he
      apply absent
      intro es _ _ g x hx hc
      have := g.bloom x hx
      rw [hc] at this; simp only [Env.hk] at this
      rw [hrej] at this; cases this
    | false =>
      rw [hrej] at he
      simp only [Bool.false_eq_true, if_false] at he
      cases rd with
      | false =>
        rw [read_fail] at he
        simp only [Prod.mk.injEq] at he
        obtain ⟨rfl, rfl, rfl⟩ := he
        refine inv_disabled h k e.bf e.dev _ h.bf (fun _ _ => rfl) (fun _ _ _ _ hr => hr) ?_ (fun k' => live_remove_err v k' k _ tr)
        intro k' hk'; simp only [current]; rw [if_neg (bid_ne_key hk')]
      | true =>
        obtain ⟨s, es, r1, g, r2⟩ := read_ok hv h hb hval
        rw [r1] at he
        obtain ⟨b1, b2, b3, b4⟩ := bremove_reps g.reps (v.hk k) g.nodup
        simp only at he
        generalize bremove s (v.hk k) = rr at he b1 b2 b3 b4
        obtain ⟨st', cs, n⟩ := rr
        simp only at he b1 b2 b3 b4
        by_cases hn : n = 0
        · simp only [hn, if_true, Prod.mk.injEq] at he
          obtain ⟨rfl, rfl, rfl⟩ := he
          apply absent
          intro es2 _ hacc g2 x hx hc
          have hmem : (⟨v.hk k, x.value⟩ : Entry) ∈ es := by
            apply g.find_mem
            rw [r2 hacc]
            apply g2.mem_find
            rw [← hc]; exact hx
          have hl : (es.filter fun x => decide (x.hk = v.hk k)).length = 0 := by omega
          have hnil := List.length_eq_zero_iff.1 hl
          have := List.filter_eq_nil_iff.1 hnil _ hmem
          simp at this
        · simp only [hn, if_false] at he
          cases wr with
          | some img =>
            simp only [writeBucket, Prod.mk.injEq] at he
            obtain ⟨rfl, rfl, rfl⟩ := he
            refine inv_disabled h k _ _ _ (bfok_clear (bfok_rebuild h.bf _ _) _) (fun b hne => by simp only [if_neg hne]) ?_ ?_
              (fun k' => live_remove_err v k' k _ tr)
            · intro idx key hi hne hr
              exact reject_clear (bfok_rebuild h.bf _ _) hi hne (reject_rebuild h.bf hi (Or.inl ⟨hne, hr⟩))
            · intro k' hk'; simp only [current]; rw [if_neg (bid_ne_key hk')]
          | none =>
            simp only [writeBucket, Prod.mk.injEq] at he
            obtain ⟨rfl, rfl, rfl⟩ := he
            have hmem : ∀ x, x ∈ (es.filter fun x => decide (x.hk ≠ v.hk k)) ↔ x ∈ es ∧ x.hk ≠ v.hk k := by
              intro x; rw [List.mem_filter]; simp
            have hne : ∀ x ∈ es, x.hk ≠ v.hk k → ¬ k = x.hk.key := by
              intro x hx hc he; apply hc; rw [(g.key x hx).1, ← he]
            have hg : Good v (.remove k .ok (cs.map fun c => ⟨v.hk k, c.value, .removed⟩) :: tr) (bfRebuild v e.bf (v.bid k) st') (v.bid k) st'
                (es.filter fun x => decide (x.hk ≠ v.hk k)) := by
              refine ⟨b1, by rw [b2, g.cap], nodup_sublist_map (List.filter_sublist ..) g.nodup, fun x hx => g.key x ((hmem x).1 hx).1,
                fun x hx => ?_, fun x hx => ?_⟩
              · obtain ⟨h1, h2⟩ := (hmem x).1 hx
                simp only [current]; rw [if_neg (hne x h1 h2)]; exact g.cur x h1
              · refine reject_rebuild h.bf hb (Or.inr ⟨rfl, ?_⟩)
                rw [bhashes_spec b1]; exact List.mem_map.2 ⟨x, hx, rfl⟩
            refine inv_written h (v.bid k) st' _ _ _ (bfok_rebuild h.bf _ _) hg hval ?_ ?_ ?_ ?_
            · intro idx key hi hne hr; exact reject_rebuild h.bf hi (Or.inl ⟨hne, hr⟩)
            · intro k' hk'; simp only [current]; rw [if_neg (bid_ne_key hk')]
            · intro k' val _ hl
              simp only [live] at hl
              split at hl
              · cases hl
              · exact hl
            · intro k' val hk' hl
              simp only [live] at hl
              split at hl
              · cases hl
              · rename_i hcalls
                obtain ⟨h1, h2, h3⟩ := h.live k' val hl
                rw [hk'] at h2 h3
                rw [← r2 h2] at h3
                have hm := g.find_mem h3
                rw [hmem]
                refine ⟨hm, fun hc => hcalls ?_⟩
                -- the removed entry is the one reported
                have hm2 : (⟨v.hk k', val⟩ : Entry) ∈ es.filter fun x => decide (x.hk = v.hk k) := by
                  rw [List.mem_filter]; exact ⟨hm, by simpa using hc⟩
                refine ⟨⟨v.hk k, val, .removed⟩, ?_, ?_⟩
                · rw [b3]
                  simp only [List.map_map, List.mem_map]
                  exact ⟨_, hm2, rfl⟩
                · have hc' : v.hk k' = v.hk k := hc
                  show k = k'
                  have := congrArg HKey.key hc'
                  exact this.symm

/-- An insert of an item that fits never runs into undefined behaviour, and keeps the invariant. If it succeeds the item is found. -/
theorem insert_inv {v : Env} {nh tb tr e} (hv : v.Ok) (h : Inv v nh tb tr e) {k value} (hfit : Fits v k value) (rd wr) :
    ∃ e' st calls, BigHash.insert v e k value rd wr = some (e', st, calls) ∧ Inv v nh tb (.insert k value st calls :: tr) e' := by
  have hb := bid_lt hv k
  simp only [BigHash.insert]
  cases hval : isBucketValid e.bits (v.bid k) with
  | false =>
    simp only [Bool.not_false, if_true]
    refine ⟨_, _, _, rfl, ?_⟩
    refine inv_same h _ ?_ (fun _ => rfl)
    intro bid es hbid hv2 hacc g x hx
    simp only [current]
    rw [if_neg]
    intro hc
    have h1 := (g.key x hx).2
    rw [← hc] at h1; subst h1; rw [hval] at hv2; cases hv2
  | true =>
    simp only [Bool.not_true, Bool.false_eq_true, if_false]
    cases rd with
    | false =>
      rw [read_fail]
      simp only
      refine ⟨_, _, _, rfl, ?_⟩
      refine inv_disabled h k e.bf e.dev _ h.bf (fun _ _ => rfl) (fun _ _ _ _ hr => hr) ?_ (fun k' => live_insert_err v k' k _ _ tr)
      intro k' hk'; simp only [current]; rw [if_neg (bid_ne_key hk')]
    | true =>
      obtain ⟨s, es, r1, g, r2⟩ := read_ok hv h hb hval
      rw [r1]
      simp only
      obtain ⟨s1, c1, es1, a1, a2, a3, a4, a5, a6, a7⟩ := bstep_inv g.reps g.nodup (.insert ⟨v.hk k, value⟩ v.chk)
        (by
          intro x chk hx
          simp only [List.mem_singleton, BOp.insert.injEq] at hx
          obtain ⟨rfl, _⟩ := hx
          rw [g.cap]
          have hlo := hv.lo
          simp only [Fits] at hfit
          exact ⟨by simp only [slot, Env.hk]; omega, hv.hash k⟩)
        (fun hk => current hk.key tr) (fun x hx => g.cur x hx)
      -- unfold the step
      simp only [bstep] at a1
      generalize hrr : bremove s (v.hk k) = rr at *
      obtain ⟨st', cs, n⟩ := rr
      simp only at a1
      cases hbi : binsert st' (v.hk k) value v.chk with
      | none => rw [hbi] at a1; cases a1
      | some r =>
        obtain ⟨st2, cs2, evi, exi⟩ := r
        rw [hbi] at a1
        simp only [Option.some.injEq, Prod.mk.injEq] at a1
        obtain ⟨rfl, rfl⟩ := a1
        simp only
        have hmem := a6 _ _ rfl
        -- entries of the new bucket
        have hsub : ∀ x ∈ es1, x ∈ es ∨ x = ⟨v.hk k, value⟩ := by
          intro x hx
          have := a7.subset (List.mem_append_right _ hx)
          simpa [inserted] using this
        have hkeys : ∀ x ∈ es1, x.hk = v.hk x.hk.key ∧ v.bid x.hk.key = v.bid k := by
          intro x hx
          rcases hsub x hx with hx | rfl
          · exact g.key x hx
          · exact ⟨rfl, rfl⟩
        have hcs : ∀ c ∈ (cs ++ cs2), c.hk = v.hk c.hk.key := by
          intro c hc
          have : (⟨c.hk, c.value⟩ : Entry) ∈ es ++ inserted [.insert ⟨v.hk k, value⟩ v.chk] :=
            a7.subset (List.mem_append_left _ (List.mem_map.2 ⟨c, hc, rfl⟩))
          simp only [inserted, List.mem_append, List.mem_singleton] at this
          rcases this with this | this
          · exact (g.key _ this).1
          · injection this with h1 h2; rw [h1]; rfl
        generalize hbf1 : (if n + evi = 0 then bfSet v e.bf (v.bid k) (v.H k) else bfRebuild v e.bf (v.bid k) st2) = bf1
        have hbf1ok : BfOk v nh tb bf1 := by
          rw [← hbf1]; split
          · exact bfok_set h.bf _ _
          · exact bfok_rebuild h.bf _ _
        have hrej1 : ∀ idx key, idx < v.numBuckets → v.bid k ≠ idx → bfReject v e.bf idx key = false → bfReject v bf1 idx key = false := by
          intro idx key hi hne hr
          rw [← hbf1]; split
          · exact reject_set h.bf hi (Or.inl hr)
          · exact reject_rebuild h.bf hi (Or.inl ⟨hne, hr⟩)
        have hbl : ∀ x ∈ es1, bfReject v bf1 (v.bid k) x.hk.hash = false := by
          intro x hx
          rw [← hbf1]; split
          · rcases hsub x hx with hx | rfl
            · exact reject_set h.bf hb (Or.inl (g.bloom x hx))
            · exact reject_set h.bf hb (Or.inr ⟨rfl, rfl⟩)
          · refine reject_rebuild h.bf hb (Or.inr ⟨rfl, ?_⟩)
            rw [bhashes_spec a3]; exact List.mem_map.2 ⟨x, hx, rfl⟩
        cases wr with
        | some img =>
          simp only [writeBucket]
          refine ⟨_, _, _, rfl, ?_⟩
          refine inv_disabled h k _ _ _ (bfok_clear hbf1ok _) (fun b hne => by simp only [if_neg hne]) ?_ ?_
            (fun k' => live_insert_err v k' k _ _ tr)
          · intro idx key hi hne hr
            exact reject_clear hbf1ok hi hne (hrej1 idx key hi hne hr)
          · intro k' hk'; simp only [current]; rw [if_neg (bid_ne_key hk')]
        | none =>
          simp only [writeBucket]
          refine ⟨_, _, _, rfl, ?_⟩
          have hg : Good v (.insert k value .ok ((cs ++ cs2).map (rehash v)) :: tr) bf1 (v.bid k) st2 es1 := by
            refine ⟨a3, by rw [a2, g.cap], a4, hkeys, fun x hx => ?_, hbl⟩
            have := a5 x hx
            simp only [latest] at this
            simp only [current]
            have hiff : v.hk k = x.hk ↔ k = x.hk.key := by
              constructor
              · intro hc; rw [← hc]; rfl
              · intro hc; rw [(hkeys x hx).1, ← hc]
            by_cases hc : k = x.hk.key
            · rw [if_pos (hiff.2 hc)] at this
              simp only [if_pos hc, if_true]; exact this
            · rw [if_neg (fun hh => hc (hiff.1 hh))] at this
              rw [if_neg hc]; exact this
          refine inv_written h (v.bid k) st2 bf1 _ es1 hbf1ok hg hval hrej1 ?_ ?_ ?_
          · intro k' hk'; simp only [current]; rw [if_neg (bid_ne_key hk')]
          · intro k' val hk' hl
            simp only [live] at hl
            rw [if_neg (bid_ne_key hk')] at hl
            split at hl
            · cases hl
            · exact hl
          · intro k' val hk' hl
            simp only [live] at hl
            by_cases hc : k = k'
            · subst hc
              simp only [if_true, Option.some.injEq] at hl
              subst hl; exact hmem
            · rw [if_neg hc] at hl
              split at hl
              · cases hl
              · rename_i hcalls
                obtain ⟨h1, h2, h3⟩ := h.live k' val hl
                rw [hk'] at h2 h3
                rw [← r2 h2] at h3
                have hm := g.find_mem h3
                have := a7.symm.subset (List.mem_append_left _ hm)
                rcases List.mem_append.1 this with h4 | h4
                · exfalso; apply hcalls
                  obtain ⟨c, hc1, hc2⟩ := List.mem_map.1 h4
                  injection hc2 with hc2 hc3
                  refine ⟨rehash v c, List.mem_map.2 ⟨c, hc1, rfl⟩, ?_⟩
                  simp only [rehash, Env.hk]; rw [hc2]; rfl
                · exact h4

theorem recover_inv {v : Env} {nh tb tr e} (_hv : v.Ok) (h : Inv v nh tb tr e) {bf gen gen2} (hbf : BfMade v bf nh tb)
    (hsome : bf.isSome = e.bf.isSome) :
    ∃ e', recover v (BigHash.create bf gen e.dev) (persist v e) gen2 = (e', true) ∧ Inv v nh tb (.restart :: tr) e' := by
  -- the recovered Bloom filter
  have hb : ∃ bf', recoverBf (bf.map BF.reset) (persist v e) = some bf' ∧ BfOk v nh tb bf' ∧
      ∀ idx key, idx < v.numBuckets → bfReject v e.bf idx key = false → bfReject v bf' idx key = false := by
    cases hb0 : bf with
    | none => refine ⟨none, rfl, ?_, ?_⟩
              · intro b hb; cases hb
              · intro _ _ _ _; rfl
    | some nb =>
      rw [hb0] at hsome
      cases he : e.bf with
      | none => rw [he] at hsome; cases hsome
      | some b =>
        obtain ⟨w, g1, g2, g3⟩ := h.bf b he
        obtain ⟨w', n1, n2, n3⟩ := make_wf (hbf nb hb0)
        obtain ⟨b', q1, q2, q3, q4, q5, q6⟩ := recover_persist b nb.reset [] (by show nb.numFilters = _; rw [n1, g1])
          (by show nb.tableBits = _; rw [n2, g2]) (by show nb.filterBytes = _; rw [w'.fb, w.fb, n3, g3, n2, g2])
          (by show nb.seeds.length = _; rw [n3, g3])
        rw [List.append_nil] at q1
        simp only [recoverBf, persist, he, Option.map_some, q1]
        refine ⟨some b', rfl, ?_, ?_⟩
        · intro b2 hb2; injection hb2 with hb2; subst hb2
          exact ⟨wf_of w q2 q3 q5 q4, by rw [q2, g1], by rw [q3, g2], by rw [q5, g3]⟩
        · intro idx key hi hr
          simp only [bfReject, Bool.not_eq_false'] at hr ⊢
          refine exist_congr w v.comb idx key q3 q4 q5 (fun a h1 h2 => q6 a ?_) hr
          have := Nat.mul_le_mul_right b.filterBytes (show idx + 1 ≤ b.numFilters by rw [g1]; omega)
          simp only [BF.byteSize]; omega
  obtain ⟨bf', hb1, hb2, hb3⟩ := hb
  have hlen : (persist v e).checker.length = checkerBytes v.numBuckets := by simp [persist]
  have hrec : recover v (BigHash.create bf gen e.dev) (persist v e) gen2 =
      ({ (BigHash.create bf gen e.dev) with gen := e.gen, bf := bf', bits := Mem.write (fun _ => 0) 0 (persist v e).checker }, true) := by
    simp only [recover]
    rw [if_neg (by simp [persist])]
    have hcb : (BigHash.create bf gen e.dev).bf = bf.map BF.reset := rfl
    rw [hcb, hb1]
    simp only
    rw [if_neg (by simp [hlen])]
    rfl
  refine ⟨_, hrec, hb2, ?_, ?_⟩
  all_goals
    have hbits : ∀ idx, idx < v.numBuckets →
        isBucketValid (Mem.write (fun _ => 0) 0 (persist v e).checker) idx = isBucketValid e.bits idx := by
      intro idx hi
      have hx : idx / perBit / 8 < checkerBytes v.numBuckets := by
        simp only [checkerBytes, perBit]; omega
      have : Mem.write (fun _ => 0) 0 (persist v e).checker (idx / perBit / 8) = e.bits (idx / perBit / 8) := by
        have := congrArg (fun l => l[idx / perBit / 8]?) (Mem.read_write_same' (m := fun _ => 0) (o := 0) hlen)
        simp only [Mem.read_getElem?, persist, Nat.zero_add] at this
        rw [if_pos hx, if_pos hx] at this
        exact Option.some.inj this
      have hm : idx / perBit % 8 / 8 = 0 := by omega
      simp only [isBucketValid, bitGet, hm, Nat.add_zero, this]
  · intro bid hbid hval hacc
    simp only at hval hacc ⊢
    rw [hbits bid hbid] at hval
    obtain ⟨es, g⟩ := h.good bid hbid hval hacc
    exact ⟨es, g.reps, g.cap, g.nodup, g.key, g.cur, fun x hx => hb3 _ _ hbid (g.bloom x hx)⟩
  · intro k val hl
    obtain ⟨h1, h2, h3⟩ := h.live k val hl
    exact ⟨by simp only; rw [hbits _ (bid_lt _hv k)]; exact h1, h2, h3⟩

theorem reach_inv {v : Env} {nh tb tr e} (hv : v.Ok) (h : Reach v nh tb tr e) : Inv v nh tb tr e := by
  have reset_bf : ∀ bf, BfOk v nh tb bf → BfOk v nh tb (bf.map BF.reset) := fun bf hb => bfok_map hb _ fun _ => ⟨rfl, rfl, rfl, rfl⟩
  induction h with
  | create hbf hacc =>
    refine ⟨reset_bf _ ?_, ?_, ?_⟩
    · intro b hb
      obtain ⟨w, n1, n2, n3⟩ := make_wf (hbf b hb)
      exact ⟨w, n1, n2, n3⟩
    · intro bid _ _ ha
      exact absurd ((hacc bid).rejected.symm.trans ha) Bool.false_ne_true
    · intro k val hl; cases hl
  | insert _ hfit he ih =>
    obtain ⟨e2, st2, c2, h1, h2⟩ := insert_inv hv ih hfit _ _
    rw [he] at h1
    simp only [Option.some.injEq, Prod.mk.injEq] at h1
    obtain ⟨rfl, rfl, rfl⟩ := h1
    exact h2
  | remove _ he ih => exact remove_inv hv ih he
  | lookup _ he ih => exact (lookup_inv hv ih he).1
  | @corrupt tr e b img _ hacc ih =>
    refine ⟨ih.bf, ?_, ?_⟩
    · intro bid hb hval ha
      simp only at hval ha ⊢
      by_cases hc : bid = b
      · simp only [if_pos hc] at ha; rw [hacc.rejected] at ha; cases ha
      · simp only [if_neg hc] at ha ⊢
        obtain ⟨es, g⟩ := ih.good bid hb hval ha
        exact ⟨es, g.reps, g.cap, g.nodup, g.key, g.cur, g.bloom⟩
    · intro k val hl
      simp only [live] at hl
      split at hl
      · cases hl
      · rename_i hne
        simp only [if_neg hne]
        exact ih.live k val hl
  | restart _ hbf hsome he ih =>
    obtain ⟨e2, h1, h2⟩ := recover_inv hv ih hbf hsome (gen := _) (gen2 := _)
    rw [he] at h1
    simp only [Prod.mk.injEq, and_true] at h1
    subst h1; exact h2
  | @reset tr e gen _ hacc ih =>
    refine ⟨reset_bf _ ih.bf, ?_, ?_⟩
    · intro bid _ _ ha
      exact absurd ((hacc bid).rejected.symm.trans ha) Bool.false_ne_true
    · intro k val hl; cases hl

/-! ### The property theorems -/

/-- **C23, safety.** In every execution, a lookup that returns a value returns the value of the latest insert of exactly that key, that
insert having succeeded and not been followed by any remove attempt of that key nor a reset. -/
theorem lookup_never_wrong {v : Env} {nh tb tr e} (hv : v.Ok) (h : Reach v nh tb tr e) {k rd e' st val}
    (he : BigHash.lookup v e k rd = (e', st, some val)) : current k tr = some val :=
  ((lookup_inv hv (reach_inv hv h) he).2.1 val rfl).2

/-- **C23, the membership filter.** A key it denies is not found by a lookup. -/
theorem couldExist_no_false_negative {v : Env} {nh tb tr e} (hv : v.Ok) (h : Reach v nh tb tr e) {k rd e' st res}
    (he : BigHash.lookup v e k rd = (e', st, res)) (hc : couldExist v e k = false) : res = none := by
  cases res with
  | none => rfl
  | some val =>
    have := (lookup_inv hv (reach_inv hv h) he).2.2.2.1 (by simp)
    rw [hc] at this; cases this

/-- **C23, completeness.** A live key is found with its value (and is not denied by the membership filter) whenever the device read
succeeds. -/
theorem live_is_found {v : Env} {nh tb tr e} (hv : v.Ok) (h : Reach v nh tb tr e) {k val} (hl : live v k tr = some val) :
    ∃ e', BigHash.lookup v e k true = (e', .ok, some val) ∧ couldExist v e k = true := by
  have := (lookup_inv hv (reach_inv hv h) (k := k) (rd := true) (e' := (BigHash.lookup v e k true).1)
    (st := (BigHash.lookup v e k true).2.1) (res := (BigHash.lookup v e k true).2.2) rfl).2.2.2.2 rfl val hl
  exact ⟨_, Prod.ext rfl (Prod.ext this.1 this.2.1), this.2.2⟩

/-- In particular, right after a successful insert the item is found. -/
theorem found_after_insert {v : Env} {nh tb tr e} (hv : v.Ok) (h : Reach v nh tb tr e) {k val rd wr e' calls} (hf : Fits v k val)
    (hi : BigHash.insert v e k val rd wr = some (e', .ok, calls)) : ∃ e2, BigHash.lookup v e' k true = (e2, .ok, some val) := by
  have h2 := Reach.insert h hf hi
  obtain ⟨e2, h3, _⟩ := live_is_found hv h2 (k := k) (val := val) (by simp [live])
  exact ⟨e2, h3⟩

/-- Every insert of an item that fits a bucket is well defined, and it succeeds exactly if the bucket is enabled and the device
operations work. -/
theorem insert_total {v : Env} {nh tb tr e} (hv : v.Ok) (h : Reach v nh tb tr e) {k val} (hf : Fits v k val) (rd wr) :
    ∃ e' st calls, BigHash.insert v e k val rd wr = some (e', st, calls) ∧
      (st = .ok ↔ isBucketValid e.bits (v.bid k) = true ∧ rd = true ∧ wr = none) := by
  obtain ⟨e', st, calls, h1, _⟩ := insert_inv hv (reach_inv hv h) hf rd wr
  refine ⟨e', st, calls, h1, ?_⟩
  simp only [BigHash.insert] at h1
  cases hval : isBucketValid e.bits (v.bid k) with
  | false => rw [hval] at h1; simp at h1; simp [← h1.2.1]
  | true =>
    rw [hval] at h1
    simp only [Bool.not_true, Bool.false_eq_true, if_false] at h1
    cases rd with
    | false => rw [read_fail] at h1; simp at h1; simp [← h1.2.1]
    | true =>
      obtain ⟨s, es, r1, g, r2⟩ := read_ok hv (reach_inv hv h) (bid_lt hv k) hval
      rw [r1] at h1
      simp only at h1
      generalize bremove s (v.hk k) = rr at *
      obtain ⟨st', cs, n⟩ := rr
      simp only at h1
      cases hbi : binsert st' (v.hk k) val v.chk with
      | none => rw [hbi] at h1; cases h1
      | some r =>
        rw [hbi] at h1
        obtain ⟨st2, cs2, evi, exi⟩ := r
        simp only at h1
        cases wr with
        | some img => simp [writeBucket] at h1; simp [← h1.2.1]
        | none => simp [writeBucket] at h1; simp [← h1.2.1]

/-- A remove that reports success removed a value that was there. -/
theorem remove_ok_current {v : Env} {nh tb tr e} (hv : v.Ok) (h : Reach v nh tb tr e) {k rd wr e' calls}
    (he : BigHash.remove v e k rd wr = (e', .ok, calls)) : current k tr ≠ none := by
  simp only [BigHash.remove] at he
  have hb := bid_lt hv k
  split at he
  · simp at he
  · rename_i hval
    split at he
    · simp at he
    · cases rd with
      | false => rw [read_fail] at he; simp at he
      | true =>
        obtain ⟨s, es, r1, g, r2⟩ := read_ok hv (reach_inv hv h) hb (by simpa using hval)
        rw [r1] at he
        obtain ⟨b1, b2, b3, b4⟩ := bremove_reps g.reps (v.hk k) g.nodup
        simp only at he
        generalize bremove s (v.hk k) = rr at he b1 b2 b3 b4
        obtain ⟨st', cs, n⟩ := rr
        simp only at he b1 b2 b3 b4
        by_cases hn : n = 0
        · simp [hn] at he
        · have : 0 < (es.filter fun x => decide (x.hk = v.hk k)).length := by omega
          obtain ⟨x, hx⟩ := List.exists_mem_of_length_pos this
          obtain ⟨hx1, hx2⟩ := List.mem_filter.1 hx
          simp only [decide_eq_true_eq] at hx2
          have := g.cur x hx1
          rw [hx2] at this
          rw [show (v.hk k).key = k from rfl] at this
          rw [this]; simp

/-- A clean restart always recovers. -/
theorem restart_recovers {v : Env} {nh tb tr e} (hv : v.Ok) (h : Reach v nh tb tr e) {bf gen gen2} (hbf : BfMade v bf nh tb)
    (hsome : bf.isSome = e.bf.isSome) : (recover v (BigHash.create bf gen e.dev) (persist v e) gen2).2 = true := by
  obtain ⟨e', h1, _⟩ := recover_inv hv (reach_inv hv h) hbf hsome (gen := gen) (gen2 := gen2)
  rw [h1]

/-! ### Non-vacuity -/

/-- An environment: 1000 buckets of 256 bytes, a hash with collisions, a checksum. -/
def exEnv : Env := ⟨1000, 256, none, fun k => k.length * 100 % 1000, fun g s => g + s.endOff + 1, fun a b => a + b, fun i => i * 7⟩

theorem exEnv_ok : exEnv.Ok :=
  ⟨by decide, by decide, by decide, fun k => Nat.lt_of_lt_of_le (Nat.mod_lt (k.length * 100) (by decide : 0 < 1000)) (by decide)⟩

/-- A reachable state: created over a blank device, one insert accepted by the device, then one in another bucket group whose write
fails, then damage to a third bucket. -/
example : ∃ tr e, Reach exEnv 2 8 tr e ∧ tr.length = 3 ∧
    live exEnv [1] tr = some [7, 7] ∧ current [1] tr = some [7, 7] ∧ current [2, 2] tr = none := by
  have h0 : Reach exEnv 2 8 [] (create none 5 fun _ => ⟨0, 0, Store.new 232 fun _ => 0⟩) :=
    .create (by intro b hb; cases hb) (fun b => .inl (by decide))
  have f1 : Fits exEnv [1] [7, 7] := by show 24 + (4 + (16 + 1 + 2)) ≤ 256; decide
  have f2 : Fits exEnv [2, 2] [9] := by show 24 + (4 + (16 + 2 + 1)) ≤ 256; decide
  obtain ⟨e1, s1, c1, h1, h1'⟩ := insert_total exEnv_ok h0 f1 true none
  have : s1 = .ok := h1'.2 ⟨by decide, rfl, rfl⟩
  subst this
  have r1 := Reach.insert h0 f1 h1
  obtain ⟨e2, s2, c2, h2, h2'⟩ := insert_total exEnv_ok r1 f2 true (some ⟨0, 0, Store.new 232 fun _ => 0⟩)
  have r2 := Reach.insert r1 f2 h2
  have l1 : live exEnv [1] [.insert [1] [7, 7] .ok c1] = some [7, 7] := by simp [live]
  have hs : s2 ≠ .ok := fun h => by have := (h2'.1 h).2.2; cases this
  have l2 : live exEnv [1] [.insert [2, 2] [9] s2 c2, .insert [1] [7, 7] .ok c1] = some [7, 7] := by
    cases s2 with
    | ok => exact absurd rfl hs
    | deviceError =>
      rw [live_insert_err, if_neg (by decide)]; exact l1
    | notFound => exact l1
    | rejected => exact l1
    | retry => exact l1
    | badState => exact l1
    | checksumError => exact l1
  have r3 := Reach.corrupt (b := 555) r2 (img := ⟨0, 0, Store.new 232 fun _ => 0⟩) (.inr (by decide))
  refine ⟨_, _, r3, rfl, ?_, ?_, ?_⟩
  · simp only [live]; rw [if_neg (by decide)]; exact l2
  · simp [current]
  · simp only [current, if_true, if_neg hs]

end Verif.BigHash
