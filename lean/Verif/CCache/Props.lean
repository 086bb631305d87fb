import Verif.CCache.BucketProps
import Verif.CCache.TableResize
import Verif.FurcHash.Props

/-!
# C36: the compact cache

Buckets: `fix_bucket_lru`, `var_bucket_lru`, `var_bucket_space` (in `Verif.CCache.BucketProps`).
Here: the whole cache, over any history of requests including resizes.
-/
namespace Verif.CCache
open Spec

variable {K V : Type} [DecidableEq K]

/-- Keys are placed with `furcHash` over the chunks (`CCache.h:1040-1050`): `h0` is the hash of the key,
`rehash` makes further bits. -/
def furcPlace (h0 : K → Nat) (rehash : Nat → Nat) (idx : K → Nat) (bpc : Nat) : Place K where
  chunk n k := FurcHash.furcWith (h0 k) rehash n
  idx := idx
  bpc := bpc

/-- What the table needs from `furcHash` is C34: it holds for every key whose search does not give up. -/
theorem furcPlace_ok {h0 : K → Nat} {rehash : Nat → Nat} {idx : K → Nat} {bpc N : Nat} (hb : 0 < bpc)
    (hN : N ≤ 2 ^ 32)
    (hg : ∀ k j, 0 < j → j < N → (∃ b, j = 2 ^ b) → ¬ FurcHash.GaveUp (h0 k) rehash (j + 1)) :
    (furcPlace h0 rehash idx bpc).Ok N := by
  refine ⟨hb, ?_, ?_⟩
  · intro n k hn
    have := FurcHash.furc_range (h0 k) rehash n
    simp only [furcPlace]; omega
  · intro a b k ha hab hbN
    obtain ⟨d, rfl⟩ : ∃ d, b = a + d := ⟨b - a, by omega⟩
    exact FurcHash.furc_grow (h0 k) rehash a d (by omega) (fun j h1 h2 => hg k j (by omega) (by omega))

/-- C36: a cache of fixed-size values.  For every history of requests (`set` of keys other than the
reserved empty one, resizes up to `N` chunks), every result and every callback is as specified: hits
return the last value, and an entry disappears only with a truthful callback. -/
theorem ccache_fixed (c : FCfg K V) (hn : 0 < c.num) (hz : c.isEmpty c.zero.1 = true)
    {P : Place K} {N : Nat} (hP : P.Ok N) (validCb : K → Bool) (promos : Bool) (n0 : Nat) (h0 : n0 ≤ N)
    (ops : List (Op K V)) (hset : ∀ k v, .set k v ∈ ops → c.isEmpty k = false)
    (hres : ∀ n, .resize n ∈ ops → n ≤ N) :
    ∃ n' m', History n0 (fun _ => none)
      (run (fixDesc c) validCb P promos (init (fixDesc c) n0) ops).2 n' m' := by
  obtain ⟨m', h, _⟩ := run_history (L := fixLaws c hn hz) hP validCb promos ops _ _
    (init_inv (L := fixLaws c hn hz) n0) h0 (by
      intro op hop
      cases op with
      | set k v => exact hset k v hop
      | resize n => exact hres n hop
      | get | exist | del | purge => trivial)
  exact ⟨_, m', h⟩

/-- C36: a cache of variable-size values; `set` of values that can be stored. -/
theorem ccache_variable (c : VCfg) (zk : K) (hkb : c.maxVal + c.hs + 1 < 65536)
    {P : Place K} {N : Nat} (hP : P.Ok N) (validCb : K → Bool) (promos : Bool) (n0 : Nat) (h0 : n0 ≤ N)
    (ops : List (Op K (List Nat)))
    (hset : ∀ k v, .set k v ∈ ops → v.length ≤ c.maxVal ∧ v.length ≤ 255)
    (hres : ∀ n, .resize n ∈ ops → n ≤ N) :
    ∃ n' m', History n0 (fun _ => none)
      (run (varDesc c zk) validCb P promos (init (varDesc c zk) n0) ops).2 n' m' := by
  obtain ⟨m', h, _⟩ := run_history (L := varLaws c zk hkb) hP validCb promos ops _ _
    (init_inv (L := varLaws c zk hkb) n0) h0 (by
      intro op hop
      cases op with
      | set k v => exact hset k v hop
      | resize n => exact hres n hop
      | get | exist | del | purge => trivial)
  exact ⟨_, m', h⟩

theorem grow_keeps_aux {D : Desc K V} (L : Laws D) {P : Place K} {N : Nat} (hP : P.Ok N)
    (validCb : K → Bool) (promos : Bool) {t : Tab D} {m : Map K V} (h : TInv L P t m) (htN : t.num ≤ N)
    (hpos : 0 < t.num) {n : Nat} (hn : t.num ≤ n) (hnN : n ≤ N) (k : K)
    (hk : P.chunk n k = P.chunk t.num k) (p : Bool) :
    (step D validCb P promos (step D validCb P promos t (.resize n)).1 (.get k p)).2.val =
      (step D validCb P promos t (.get k p)).2.val := by
  obtain ⟨m', a, b, c⟩ := step_resize hP validCb promos h htN hnN
  obtain ⟨_, g1, _⟩ := step_get hP validCb promos b (k := k) (p := p)
  obtain ⟨_, g2, _⟩ := step_get hP validCb promos h (k := k) (p := p)
  have hn' : (step D validCb P promos t (.resize n)).1.num = n := a.1
  simp only [Behaves] at g1 g2
  rw [if_neg (by omega)] at g1 g2
  rw [g1.2.2.2.1, g2.2.2.2.1, c hn k hk]

/-- Growing the cache does not affect the keys that stay on their chunk, whatever happened before. -/
theorem ccache_fixed_grow (c : FCfg K V) (hn : 0 < c.num) (hz : c.isEmpty c.zero.1 = true)
    {P : Place K} {N : Nat} (hP : P.Ok N) (validCb : K → Bool) (promos : Bool) (n0 : Nat) (h0 : n0 ≤ N)
    (ops : List (Op K V)) (hset : ∀ k v, .set k v ∈ ops → c.isEmpty k = false)
    (hres : ∀ n, .resize n ∈ ops → n ≤ N) :
    let t := (run (fixDesc c) validCb P promos (init (fixDesc c) n0) ops).1
    ∀ n k p, 0 < t.num → t.num ≤ n → n ≤ N → P.chunk n k = P.chunk t.num k →
      (step _ validCb P promos (step _ validCb P promos t (.resize n)).1 (.get k p)).2.val =
        (step _ validCb P promos t (.get k p)).2.val := by
  obtain ⟨m', h, hi, hiN⟩ := run_history (L := fixLaws c hn hz) hP validCb promos ops _ _
    (init_inv (L := fixLaws c hn hz) n0) h0 (by
      intro op hop
      cases op with
      | set k v => exact hset k v hop
      | resize n => exact hres n hop
      | get | exist | del | purge => trivial)
  intro t n k p h1 h2 h3 h4
  exact grow_keeps_aux _ hP validCb promos hi hiN h1 h2 h3 k h4 p

/-- … and the same for variable-size values. -/
theorem ccache_variable_grow (c : VCfg) (zk : K) (hkb : c.maxVal + c.hs + 1 < 65536)
    {P : Place K} {N : Nat} (hP : P.Ok N) (validCb : K → Bool) (promos : Bool) (n0 : Nat) (h0 : n0 ≤ N)
    (ops : List (Op K (List Nat)))
    (hset : ∀ k v, .set k v ∈ ops → v.length ≤ c.maxVal ∧ v.length ≤ 255)
    (hres : ∀ n, .resize n ∈ ops → n ≤ N) :
    let t := (run (varDesc c zk) validCb P promos (init (varDesc c zk) n0) ops).1
    ∀ n k p, 0 < t.num → t.num ≤ n → n ≤ N → P.chunk n k = P.chunk t.num k →
      (step _ validCb P promos (step _ validCb P promos t (.resize n)).1 (.get k p)).2.val =
        (step _ validCb P promos t (.get k p)).2.val := by
  obtain ⟨m', h, hi, hiN⟩ := run_history (L := varLaws c zk hkb) hP validCb promos ops _ _
    (init_inv (L := varLaws c zk hkb) n0) h0 (by
      intro op hop
      cases op with
      | set k v => exact hset k v hop
      | resize n => exact hres n hop
      | get | exist | del | purge => trivial)
  intro t n k p h1 h2 h3 h4
  exact grow_keeps_aux _ hP validCb promos hi hiN h1 h2 h3 k h4 p

/-- Finding: storing a value that is too large over an existing one reports `found` and a replacement,
but the entry is gone, without a removal callback (`CCacheVariableLruBucket.h:570-587`). -/
theorem var_oversize_update (c : VCfg) (zk : K) (hkb : c.kb < 65536) (validCb : K → Bool)
    {b : VB K} (hb : Good (varLaws c zk hkb) b) {k : K} {w v : List Nat} (hw : (k, w) ∈ vEnts b)
    (hlt : w.length < v.length) (hbig : ¬ (v.length ≤ c.maxVal ∧ v.length ≤ 255)) :
    let r := bucketSet (varDesc c zk) validCb b k v
    r.1 = .found ∧ r.2.2 = [.replaced k w v] ∧ vEnts r.2.1 = others (vEnts b) k := by
  have hf := bucketFind_spec hb.wf k
  simp only [bucketSet]
  cases hfind : bucketFind (varDesc c zk) b k with
  | none => exact absurd rfl (hf.2 hfind _ hw)
  | some pos =>
    obtain ⟨w', hw'⟩ := hf.1 pos hfind
    obtain ⟨g1, g2, -, -⟩ := list_at hb.nd hw'
    have : w = w' := hb.uniq hw (List.mem_of_getElem? hw')
    subst this
    obtain ⟨u1, u2⟩ := update_reject hkb hb.wf.1 hw' hlt hbig
    refine ⟨rfl, ?_, ?_⟩
    · show Ev.replaced k ((varDesc c zk).val b pos) v :: ((vUpdate c b pos v).2).map _ = _
      rw [u2, ((varLaws c zk hkb).get hb.wf hw').2]; rfl
    · show vEnts (vUpdate c b pos v).1 = _
      rw [u1.ents]; exact g2

/-! ### the hypotheses are met -/

section
/-- Two slots per bucket; key 0 is reserved. -/
def exF : FCfg Nat Nat := ⟨2, (0, 0), fun k => k == 0⟩

/-- A placement as consistent hashing makes it: key `k` goes to the largest chunk `≤ k`-th that exists. -/
def exP : Place Nat := ⟨fun n k => if k % 4 < n then k % 4 else 0, fun k => k, 1⟩

theorem exP_ok : exP.Ok 4 := by
  refine ⟨by decide, ?_, ?_⟩
  · intro n k hn; simp only [exP]; split <;> omega
  · intro a b k ha hab _; simp only [exP]; split <;> split <;> omega

/-- Three sets, a resize, three gets. -/
def exOps (n : Nat) : List (Op Nat Nat) :=
  [.set 1 10, .set 2 20, .set 3 30, .resize n, .get 1 true, .get 2 true, .get 3 true]

/-- Seven requests: three sets in one chunk (the first is evicted), a growth that moves one of the other
two, then both are found with their values. -/
example : let r := run (fixDesc exF) (fun _ => true) exP true (init (fixDesc exF) 1) (exOps 4)
    r.2.map (fun x => (x.2.val, x.2.evs.length)) =
      [(none, 0), (none, 0), (none, 1), (none, 0), (none, 0), (some 20, 0), (some 30, 0)] ∧ r.1.num = 4 := by
  decide +kernel

/-- Shrinking evicts what does not fit. -/
example : let r := run (fixDesc exF) (fun _ => true) exP true (init (fixDesc exF) 4) (exOps 1)
    r.2.map (fun x => (x.2.val, x.2.evs.length)) =
      [(none, 0), (none, 0), (none, 0), (none, 1), (none, 0), (some 20, 0), (some 30, 0)] := by
  decide +kernel

example : ∃ n' m', History 1 (fun _ => none)
    (run (fixDesc exF) (fun _ => true) exP true (init (fixDesc exF) 1)
      (exOps 4)).2 n' m' :=
  ccache_fixed exF (by decide) rfl exP_ok _ _ 1 (by decide) _ (by intro k v h; simp [exOps] at h; rcases h with h | h | h <;> simp [h, exF])
    (by intro n h; simp [exOps] at h; omega)

/-- A bucket of 14 bytes, 3 per header: the third entry evicts both others, by size. -/
def exV : VCfg := ⟨3, 10⟩

def exVOps : List (BOp Nat (List Nat)) :=
  [.set 1 [1, 1], .set 2 [2], .hit 1, .set 2 [7, 7, 7], .set 3 [3, 3, 3, 3, 3, 3]]

example : let r := brun (varDesc exV 0) (fun _ => true) (varDesc exV 0).empty exVOps
    shown (varDesc exV 0) r.1 = [(3, [3, 3, 3, 3, 3, 3])] ∧ r.2.length = 3 := by
  have h := var_bucket_lru exV 0 (by decide) (fun _ => true) exVOps
      (by intro op hop; simp [exVOps] at hop; rcases hop with h | h | h | h | h <;> subst h <;> simp [VarOk, exV])
  have h1 := congrArg Prod.fst h
  have h2 := congrArg Prod.snd h
  dsimp only at h1 h2 ⊢
  rw [h1, h2]
  decide +kernel

/-- `furcPlace_ok` applies to caches of up to two chunks without further assumptions on the keys, and to
larger ones for the keys that do not give up: here the key with hash 0. -/
example : (furcPlace (fun _ : Unit => 0) (fun x => x) (fun _ => 0) 1).Ok 5 := by
  refine furcPlace_ok (by decide) (by decide) ?_
  intro k j h1 h2 _
  have : j = 1 ∨ j = 2 ∨ j = 3 ∨ j = 4 := by omega
  rcases this with rfl | rfl | rfl | rfl <;> (unfold FurcHash.GaveUp; decide +kernel)
end

end Verif.CCache
