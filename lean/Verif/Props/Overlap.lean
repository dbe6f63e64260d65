import Verif.Proofs.OverlapAll
import Verif.Props.Hmac
import Verif.Props.Blowfish
/-!
# C84: input and output arrays that overlap
-/
namespace Pgfe.Props
open Pgfe.Model Pgfe.Spec Pgfe.Proofs Pgfe.Proofs.Hash Pgfe.Proofs.Hmac

/-- The bytes `pieces` of an array stand for: pairs of an index and a length. -/
def piecesOf (mem : List Byte) (pieces : List (Nat × Nat)) : List Byte :=
  pieces.flatMap (fun p => (mem.drop p.1).take p.2)

theorem memUpdates_ok {I : HashImpl} {H : List Byte → List Byte} (K : HashOK I H) (mem : List Byte) (rest : List HashImpl.MemCall)
    (pieces : List (Nat × Nat)) : ∀ (m : List Byte) (c : I.Ctx), K.Inv m c →
    (∀ p ∈ pieces, p.1 + p.2 ≤ mem.length ∧ K.okUpd p.2) → K.okTot (m.length + (piecesOf mem pieces).length) →
    ∃ c', I.memCalls c mem (pieces.map (fun p => .update p.1 p.2) ++ rest) = I.memCalls c' mem rest ∧
      K.Inv (m ++ piecesOf mem pieces) c' := by
  induction pieces with
  | nil =>
    intro m c h _ _
    refine ⟨c, rfl, ?_⟩
    rw [piecesOf, List.flatMap_nil, List.append_nil]; exact h
  | cons p ps ih =>
    intro m c h hp ht
    obtain ⟨hp1, hp2⟩ := hp p (List.mem_cons_self ..)
    have e : piecesOf mem (p :: ps) = (mem.drop p.1).take p.2 ++ piecesOf mem ps := rfl
    have hl : ((mem.drop p.1).take p.2).length = p.2 := by rw [List.length_take, List.length_drop]; omega
    rw [e, List.length_append, hl] at ht
    obtain ⟨c1, h1, h2⟩ := K.update_ok m c (mem.drop p.1) p.2 h hp2 (by rw [List.length_drop]; omega)
      (K.tot_mono _ _ (by omega) ht)
    obtain ⟨c', h3, h4⟩ := ih (m ++ (mem.drop p.1).take p.2) c1 h2 (fun q hq => hp q (List.mem_cons_of_mem _ hq))
      (by rw [List.length_append, hl, Nat.add_assoc]; exact ht)
    refine ⟨c', ?_, by rw [e, ← List.append_assoc]; exact h4⟩
    rw [List.map_cons, List.cons_append, HashImpl.memCalls, h1, bind_ok, h3]

/-- **C84, hashes.** Any pieces of an array are fed to a hash context and the digest is written into the same array, at
any place, over the pieces or not: it is the digest of the bytes that were there, and nothing else changes. -/
theorem C84_hash (a : Alg) (bits : Nat) (hb : bits < 2 ^ 32) (g : (a.impl bits).Ctx) (hg : memOK a bits g)
    (mem : List Byte) (pieces : List (Nat × Nat)) (hp : ∀ p ∈ pieces, p.1 + p.2 ≤ mem.length ∧ okUpd a p.2)
    (ht : okTot a (piecesOf mem pieces).length) (op : Nat) (ho : op + outSize a bits ≤ mem.length) :
    ∃ c', ((a.impl bits).init g >>= fun c =>
        (a.impl bits).memCalls c mem (pieces.map (fun p => .update p.1 p.2) ++ [.digest op]))
      = .ok (c', mem.take op ++ libHash a (bits / 8) (piecesOf mem pieces) ++ mem.drop (op + outSize a bits)) := by
  obtain ⟨K, c⟩ := exists_ok a bits hb
  obtain ⟨c0, h1, h2⟩ := K.init_ok g (c.wf _ hg)
  obtain ⟨c1, h3, h4⟩ := memUpdates_ok K mem [.digest op] pieces [] c0 h2
    (fun p h => ⟨(hp p h).1, c.u _ (hp p h).2⟩) (by rw [List.length_nil, Nat.zero_add]; exact c.t _ ht)
  rw [List.nil_append] at h4
  obtain ⟨c2, h5, _⟩ := K.digest_ok _ c1 (mem.drop op) h4 (c.t _ ht) (by rw [c.ds, List.length_drop]; omega)
  refine ⟨c2, ?_⟩
  rw [h1, bind_ok, h3, HashImpl.memCalls, h5, bind_ok, HashImpl.memCalls]
  dsimp only
  rw [c.ds, List.drop_drop, List.append_assoc]

/-- **C84, `pgfe_<alg>_encode`.** -/
theorem C84_encode (a : Alg) (bits : Nat) (hb : bits < 2 ^ 32) (g : (a.impl bits).Ctx) (hg : memOK a bits g)
    (mem : List Byte) (ip n op : Nat) (hi : ip + n ≤ mem.length) (hu : okUpd a n) (ht : okTot a n)
    (ho : op + outSize a bits ≤ mem.length) :
    (a.impl bits).encodeMem g mem ip n op = .ok
      (mem.take op ++ libHash a (bits / 8) ((mem.drop ip).take n) ++ mem.drop (op + outSize a bits)) := by
  have e : piecesOf mem [(ip, n)] = (mem.drop ip).take n := by simp [piecesOf]
  have hl : ((mem.drop ip).take n).length = n := by rw [List.length_take, List.length_drop]; omega
  obtain ⟨c', h⟩ := C84_hash a bits hb g hg mem [(ip, n)]
    (by intro p hp; rw [List.mem_singleton] at hp; subst hp; exact ⟨hi, hu⟩) (by rw [e, hl]; exact ht) op ho
  rw [e] at h
  rw [HashImpl.encodeMem]
  cases hg' : (a.impl bits).init g with
  | error e => rw [hg'] at h; cases h
  | ok c =>
    rw [hg', bind_ok] at h
    have h' : (a.impl bits).memCalls c mem [.update ip n, .digest op] = _ := h
    rw [bind_ok, h', bind_ok]

/-- **C84, chains.** Hashing a buffer of the size of the digest in place, again and again, gives the iterated hash. -/
theorem C84_chain (a : Alg) (bits : Nat) (hb : bits < 2 ^ 32) (gs : List (a.impl bits).Ctx)
    (hg : ∀ g ∈ gs, memOK a bits g) (hu : okUpd a (outSize a bits)) (rest : List Byte) :
    ∀ x : List Byte, x.length = outSize a bits →
      gs.foldlM (fun mem g => (a.impl bits).encodeMem g mem 0 (outSize a bits) 0) (x ++ rest)
        = .ok (gs.foldl (fun y _ => libHash a (bits / 8) y) x ++ rest) := by
  have ht : okTot a (outSize a bits) := by
    cases a <;> first | trivial | (simp only [okTot, outSize]; decide)
  induction gs with
  | nil => intro x _; rfl
  | cons g gs ih =>
    intro x hx
    have hl : (libHash a (bits / 8) x).length = outSize a bits := by
      obtain ⟨K, c⟩ := exists_ok a bits hb
      rw [K.len, c.ds]
    rw [List.foldlM_cons, C84_encode a bits hb g (hg g (List.mem_cons_self ..)) _ 0 _ 0
      (by rw [List.length_append]; omega) hu ht (by rw [List.length_append]; omega), bind_ok, List.drop_zero,
      List.take_left' hx, List.take_zero, List.nil_append, Nat.zero_add, List.drop_left' hx,
      ih (fun g h => hg g (List.mem_cons_of_mem _ h)) _ hl]
    rfl

/-- **C84, HMAC.** Key, message and output anywhere in one array. -/
theorem C84_hmac (a : Alg) (ha : isShake a = false) (g : HmacCtx.Mem (a.impl 0)) (hg : hmacMemOK a g)
    (mem : List Byte) (kp k ip n op : Nat) (hk : kp + k ≤ mem.length) (hi : ip + n ≤ mem.length) (hu : okUpd a n)
    (ht : okTot a (blockBytes a + n)) (ho : op + outSize a 0 ≤ mem.length) :
    pgfeHmacMem a g mem kp k ip n op = .ok (mem.take op ++
      hmacShort (libHash a 0) (blockBytes a) (((mem.drop kp).take k).take (blockBytes a)) ((mem.drop ip).take n) ++
      mem.drop (op + outSize a 0)) := by
  have h := C33_oneShot_exact a ha g hg (mem.drop kp) k (by rw [List.length_drop]; omega) (mem.drop ip) n
    (by rw [List.length_drop]; omega) hu ht (mem.drop op) (by rw [List.length_drop]; omega)
  have e : HmacCtx.oneShotMem (a.impl 0) a.blockSize a.digestSize g mem kp k ip n op
      = (HmacCtx.oneShot (a.impl 0) a.blockSize a.digestSize g (mem.drop kp) k (mem.drop ip) n (mem.drop op) >>=
          fun out => .ok (mem.take op ++ out)) := by
    rw [HmacCtx.oneShotMem, HmacCtx.oneShot]
    cases HmacCtx.init (a.impl 0) a.blockSize g.ctx with
    | error e => rfl
    | ok c =>
      rw [bind_ok, bind_ok]
      cases HmacCtx.setKey (a.impl 0) a.blockSize c (mem.drop kp) k with
      | error e => rfl
      | ok c =>
        rw [bind_ok, bind_ok]
        cases HmacCtx.update (a.impl 0) c (some (mem.drop ip)) n with
        | error e => rfl
        | ok c =>
          rw [bind_ok, bind_ok]
          cases HmacCtx.digest (a.impl 0) a.blockSize a.digestSize g.mid g.inner c (mem.drop op) with
          | error e => rfl
          | ok c => rfl
  rw [h, bind_ok, List.drop_drop, ← List.append_assoc] at e
  cases a <;> first | exact absurd ha (by decide) | exact e

/-- **C84, Blowfish** (partial: the output at or before the input, or behind its end; for the others see
`C84_violation`). The result is the one for separate arrays. -/
theorem C84_blowfish_partial (ctx : BfCtx) (hc : bfCtxOK ctx) (junk : List Byte) (hj : junk.length = 8) (mem : List Byte)
    (ip n op : Nat) (hi : ip + n ≤ mem.length) (ho : op + 8 * ((n + 7) / 8) ≤ mem.length)
    (h : op ≤ ip ∨ ip + n ≤ op) :
    Bf.encryptMem ctx junk mem ip n op = .ok (8 * ((n + 7) / 8), mem.take op ++
      Blowfish.ecb (Blowfish.enc (bfWords ctx)) ((mem.drop ip).take n) ++ mem.drop (op + 8 * ((n + 7) / 8))) ∧
    Bf.decryptMem ctx junk mem ip n op = .ok (8 * ((n + 7) / 8), mem.take op ++
      Blowfish.ecb (Blowfish.dec (bfWords ctx)) ((mem.drop ip).take n) ++ mem.drop (op + 8 * ((n + 7) / 8))) := by
  have hl : ((mem.drop ip).take n).length = n := by rw [List.length_take, List.length_drop]; omega
  have aux (f : BfUnit → C BfUnit) (y : List Byte)
      (hy : Bf.generic f junk (some (mem.drop ip)) n (mem.drop op)
        = .ok (8 * ((n + 7) / 8), y ++ (mem.drop op).drop (8 * ((n + 7) / 8)))) :
      Bf.genericMem f junk mem ip n op
        = .ok (8 * ((n + 7) / 8), mem.take op ++ y ++ mem.drop (op + 8 * ((n + 7) / 8))) := by
    rcases Overlap.generic_same f junk mem ip n op (by omega) h with ⟨e, _, h2⟩ | ⟨⟨r, m⟩, ⟨q, o⟩, h1, h2, h3, h4⟩
    · rw [hy] at h2; cases h2
    · rw [hy, Except.ok.injEq, Prod.mk.injEq] at h2
      dsimp only at h3 h4
      rw [h1, h3, h4, ← h2.1, ← h2.2, List.drop_drop, List.append_assoc]
  have h1 := C44_encrypt ctx hc junk hj ((mem.drop ip).take n) ((mem.drop ip).drop n) (mem.drop op)
    (by rw [hl, List.length_drop]; omega)
  have h2 := C44_decrypt ctx hc junk hj ((mem.drop ip).take n) ((mem.drop ip).drop n) (mem.drop op)
    (by rw [hl, List.length_drop]; omega)
  rw [List.take_append_drop, hl] at h1 h2
  exact ⟨aux _ _ h1, aux _ _ h2⟩

/-- **C84, Blowfish, for every array**: with the output at or before the input, or behind its end, errors included, the
result is the one for separate arrays. -/
theorem C84_blowfish_exact (f : BfUnit → C BfUnit) (junk mem : List Byte) (ip n op : Nat) (hop : op ≤ mem.length)
    (h : op ≤ ip ∨ ip + n ≤ op) :
    Bf.genericMem f junk mem ip n op
      = (Bf.generic f junk (some (mem.drop ip)) n (mem.drop op) >>= fun r => .ok (r.1, mem.take op ++ r.2)) := by
  rcases Overlap.generic_same f junk mem ip n op hop h with ⟨e, h1, h2⟩ | ⟨⟨r, m⟩, ⟨q, o⟩, h1, h2, h3, h4⟩
  · rw [h1, h2]; rfl
  · dsimp only at h3 h4
    rw [h1, h2, bind_ok, h3, h4]

/-- **C84, Blowfish, for every position**: what happens is that one block after the other is read from the array as it
is by then, filled up with zero bytes, enciphered and written. -/
theorem C84_blowfish_every (ctx : BfCtx) (hc : bfCtxOK ctx) (junk : List Byte) (hj : junk.length = 8) (mem : List Byte)
    (ip n op : Nat) (hi : ip + n ≤ mem.length) (ho : op + 8 * ((n + 7) / 8) ≤ mem.length) :
    Bf.encryptMem ctx junk mem ip n op = .ok (8 * ((n + 7) / 8),
      Blowfish.moveBlocks (Blowfish.enc (bfWords ctx)) ip n op mem ((n + 7) / 8)) ∧
    Bf.decryptMem ctx junk mem ip n op = .ok (8 * ((n + 7) / 8),
      Blowfish.moveBlocks (Blowfish.dec (bfWords ctx)) ip n op mem ((n + 7) / 8)) :=
  ⟨Overlap.genericM _ _ (Proofs.Bf.encryptUnit_eq hc) junk mem ip n op hj hi ho,
    Overlap.genericM _ _ (Proofs.Bf.decryptUnit_eq hc) junk mem ip n op hj hi ho⟩

/-- **C84, Blowfish, the output `d` blocks behind the input**: the first `d` blocks are right, and every later one is
the encryption of an earlier block of the result instead of the message. -/
theorem C84_blowfish_shift (ctx : BfCtx) (hc : bfCtxOK ctx) (junk : List Byte) (hj : junk.length = 8) (mem : List Byte)
    (ip k d : Nat) (hd : 0 < d) (ho : ip + 8 * d + 8 * k ≤ mem.length) :
    ∃ out : List Byte, Bf.encryptMem ctx junk mem ip (8 * k) (ip + 8 * d)
        = .ok (8 * k, mem.take (ip + 8 * d) ++ out ++ mem.drop (ip + 8 * d + 8 * k)) ∧ out.length = 8 * k ∧
      ∀ j, j < k → (out.drop (8 * j)).take 8 = Blowfish.onBlock (Blowfish.enc (bfWords ctx))
        (if j < d then (mem.drop (ip + 8 * j)).take 8 else (out.drop (8 * (j - d))).take 8) := by
  obtain ⟨out, e, hl, h⟩ := Overlap.shifted (Blowfish.enc (bfWords ctx)) mem ip k d hd ho k (Nat.le_refl _)
  have hk : (8 * k + 7) / 8 = k := by omega
  refine ⟨out, ?_, hl, h⟩
  rw [(C84_blowfish_every ctx hc junk hj mem ip (8 * k) (ip + 8 * d) (by omega) (by omega)).1, hk, e]

/-- **C84, violation.** Encrypting two equal blocks to the place one block further on: the second block of the result is
not the encryption of the second block of the message, because that had been overwritten. -/
theorem C84_violation : ∃ m, Bf.encryptMem ⟨bfP0, bfS0⟩ (List.replicate 8 0#8) (List.replicate 24 0#8) 0 16 8 = .ok (16, m) ∧
    m.take 8 = List.replicate 8 0#8 ∧ (m.drop 8).take 8 ≠ (m.drop 16).take 8 := by
  have h : (Bf.encryptMem ⟨bfP0, bfS0⟩ (List.replicate 8 0#8) (List.replicate 24 0#8) 0 16 8).toOption.map
      (fun r => (r.1, r.2.take 8 == List.replicate 8 0#8, (r.2.drop 8).take 8 == (r.2.drop 16).take 8)) = some (16, true, false) := by
    decide +kernel
  cases e : Bf.encryptMem ⟨bfP0, bfS0⟩ (List.replicate 8 0#8) (List.replicate 24 0#8) 0 16 8 with
  | error x => rw [e] at h; cases h
  | ok r =>
    rw [e] at h
    simp only [Except.toOption, Option.map_some, Option.some.injEq, Prod.mk.injEq, beq_iff_eq,
      beq_eq_false_iff_ne] at h
    exact ⟨r.2, by rw [← h.1], h.2.1, h.2.2⟩

/-- SHA-1 of "abc" written over "bc" and what follows; the MAC of RFC 2202, case 2, written over key and message; and
a Blowfish encryption moved three bytes towards the beginning. -/
theorem C84_example (g : (Alg.impl .SHA1 0).Ctx) (hg : memOK .SHA1 0 g) :
    (Alg.impl .SHA1 0).encodeMem g (str "xabc" ++ List.replicate 20 7#8) 1 3 2
      = .ok (str "xa" ++ libHash .SHA1 0 (str "abc") ++ [7#8, 7#8]) ∧
    pgfeHmacMem .SHA1 sha1Mem (str "Jefe" ++ jefeMsg) 0 4 4 28 2 = .ok (str "Je" ++ jefeMac ++ str "r nothing?") ∧
    ∃ c, Bf.encryptMem ⟨bfP0, bfS0⟩ (List.replicate 8 0#8) (str "..." ++ str "sixteen bytes!!!") 3 16 0
        = .ok (16, c ++ str "!!!") ∧ c = Blowfish.ecb (Blowfish.enc (bfWords ⟨bfP0, bfS0⟩)) (str "sixteen bytes!!!") := by
  refine ⟨?_, ?_, ?_⟩
  · exact C84_encode .SHA1 0 (by decide) g hg _ 1 3 2 (by decide) (by show 3 < 2 ^ 31; decide)
      (by show 8 * 3 < 2 ^ 64; decide) (by decide)
  · rw [C84_hmac .SHA1 rfl sha1Mem sha1Mem_ok _ 0 4 4 28 2 (by decide) (by decide) (by show 28 < 2 ^ 31; decide)
      (by show 8 * _ < 2 ^ 64; decide) (by decide),
      show (((str "Jefe" ++ jefeMsg).drop 0).take 4).take (blockBytes .SHA1) = str "Jefe" by decide,
      show ((str "Jefe" ++ jefeMsg).drop 4).take 28 = jefeMsg by decide,
      hmac_std .SHA1 rfl _ _ (by decide) (by show _ % 64 < 56; decide)]
    have e := jefeMac_eq
    rw [hmac, if_neg (by decide)] at e
    rw [e]
    rfl
  · exact ⟨_, (C84_blowfish_partial ⟨bfP0, bfS0⟩ C47_example.1 _ rfl _ 3 16 0 (by decide) (by decide) (.inl (by decide))).1, rfl⟩

/-- Three SHA-1 in place. -/
theorem C84_chain_example (g : (Alg.impl .SHA1 0).Ctx) (hg : memOK .SHA1 0 g) (x : List Byte) (hx : x.length = 20) :
    [g, g, g].foldlM (fun mem g => (Alg.impl .SHA1 0).encodeMem g mem 0 20 0) (x ++ [1#8])
      = .ok (libHash .SHA1 0 (libHash .SHA1 0 (libHash .SHA1 0 x)) ++ [1#8]) :=
  C84_chain .SHA1 0 (by decide) [g, g, g] (by intro g' h; simp at h; subst h; exact hg) (by show 20 < 2 ^ 31; decide)
    [1#8] x hx

/-- Three blocks moved on by two: the third block of the result is the first one, enciphered once more. -/
theorem C84_shift_example : ∃ out : List Byte,
    Bf.encryptMem ⟨bfP0, bfS0⟩ (List.replicate 8 0#8) (str "first...second..third..." ++ List.replicate 17 9#8) 0 24 16
      = .ok (24, str "first...second.." ++ out ++ [9#8]) ∧
    out.take 8 = Blowfish.onBlock (Blowfish.enc (bfWords ⟨bfP0, bfS0⟩)) (str "first...") ∧
    (out.drop 16).take 8 = Blowfish.onBlock (Blowfish.enc (bfWords ⟨bfP0, bfS0⟩)) (out.take 8) := by
  obtain ⟨out, e, _, h⟩ := C84_blowfish_shift ⟨bfP0, bfS0⟩ C47_example.1 (List.replicate 8 0#8) rfl
    (str "first...second..third..." ++ List.replicate 17 9#8) 0 3 2 (by decide) (by decide)
  exact ⟨out, e, h 0 (by decide), h 2 (by decide)⟩

end Pgfe.Props
