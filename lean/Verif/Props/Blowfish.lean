import Verif.Proofs.BlowfishEcb
import Verif.Proofs.BlowfishPi
import Verif.Proofs.HexClean
/-!
# Blowfish: C43, C44, C45, C46, C47, C61, C68
-/
namespace Pgfe.Props
open Pgfe Pgfe.Model
open Pgfe.Spec

/-- A `struct pgfe_blowfish_ctx`: eighteen subkeys and four boxes of 256 words, with arbitrary contents. -/
def bfCtxOK (ctx : BfCtx) : Prop := ctx.P.length = 18 ∧ ctx.S.length = 4 ∧ ∀ r ∈ ctx.S, r.length = 256

/-- The 1042 words of a context in memory order. -/
def bfWords (ctx : BfCtx) : List W32 := ctx.P ++ ctx.S.flatten

/-- A context of which nothing but its type is known. -/
def bfMem : BfCtx := ⟨List.replicate 18 0xdeadbeef#32, List.replicate 4 (List.replicate 256 0x55#32)⟩
theorem bfMem_ok : bfCtxOK bfMem := by
  refine ⟨by decide, by decide, ?_⟩
  intro r hr
  rw [bfMem] at hr
  rw [List.eq_of_mem_replicate hr, List.length_replicate]

/-! ## C47 -/

/-- **C47, the key schedule.** For every non-empty key and whatever the context contained before, `pgfe_blowfish_init`
gives the table that Schneier's key schedule makes from the digits of π and the key. -/
theorem C47_init (mem : BfCtx) (hm : bfCtxOK mem) (key : List Byte) (hk : key ≠ []) :
    ∃ ctx, Bf.init mem key key.length = .ok ctx ∧ bfCtxOK ctx ∧
      bfWords ctx = Blowfish.expand Blowfish.piTable key := by
  obtain ⟨ctx, h1, h2, h3⟩ := Proofs.Bf.init_eq mem hm key key.length (List.length_pos_iff.mpr hk) (Nat.le_refl _)
  refine ⟨ctx, h1, h2, ?_⟩
  rw [List.take_length] at h3
  rw [← Proofs.Bf.tab_pi]
  exact h3

/-- The bytes a key or data argument stands for. -/
def BfArg.bytes : Bf.Arg → List Byte
  | .seq m n => m.take n
  | .cs m => m.takeWhile (fun b => b ≠ 0#8)
  | .str s => s
  | .sd s => s

/-- Arrays are long enough, C strings are terminated. -/
def BfArg.ok : Bf.Arg → Prop
  | .seq m n => n ≤ m.length
  | .cs m => 0#8 ∈ m
  | .str _ => True
  | .sd _ => True

/-- **C47, the constructors** from bytes, C strings and `SequentialData` (for `std::string` see C61). -/
theorem C47_create (mem : BfCtx) (hm : bfCtxOK mem) (key : Bf.Arg) (hok : BfArg.ok key) (hk : BfArg.bytes key ≠ [])
    (hs : ∀ s, key ≠ .str s) :
    ∃ ctx, Bf.create mem key = .ok ctx ∧ bfCtxOK ctx ∧ bfWords ctx = Blowfish.expand Blowfish.piTable (BfArg.bytes key) := by
  have key : ∀ (m : List Byte) (n : Nat), n ≤ m.length → m.take n ≠ [] →
      ∃ ctx, Bf.init mem m n = .ok ctx ∧ bfCtxOK ctx ∧ bfWords ctx = Blowfish.expand Blowfish.piTable (m.take n) := by
    intro m n hn hne
    have h0 : 0 < n := by
      rcases Nat.eq_zero_or_pos n with h | h
      · rw [h, List.take_zero] at hne; exact absurd rfl hne
      · exact h
    obtain ⟨ctx, h1, h2, h3⟩ := Proofs.Bf.init_eq mem hm m n h0 hn
    refine ⟨ctx, h1, h2, ?_⟩
    rw [← Proofs.Bf.tab_pi]
    exact h3
  rename_i k
  cases k with
  | seq m n => exact key m n hok hk
  | cs m =>
    obtain ⟨q1, q2, q3⟩ := Proofs.strlen_take m hok
    rw [Bf.create, q1, bind_ok]
    have := key m (m.takeWhile (fun b => b ≠ 0#8)).length q2 (by rw [q3]; exact hk)
    rw [q3] at this
    exact this
  | str s => exact absurd rfl (hs s)
  | sd s =>
    have := key (s ++ [0#8]) s.length (by simp) (by rw [List.take_left' rfl]; exact hk)
    rw [List.take_left' rfl] at this
    exact this

/-- **C47, the cipher.** On every context the unit functions are Schneier's encryption and decryption with the table
of the context. -/
theorem C47_units (ctx : BfCtx) (hc : bfCtxOK ctx) (l r : W32) :
    Bf.encryptUnit ctx ⟨l, r⟩ = .ok ⟨(Blowfish.enc (bfWords ctx) (l, r)).1, (Blowfish.enc (bfWords ctx) (l, r)).2⟩ ∧
    Bf.decryptUnit ctx ⟨l, r⟩ = .ok ⟨(Blowfish.dec (bfWords ctx) (l, r)).1, (Blowfish.dec (bfWords ctx) (l, r)).2⟩ :=
  ⟨Proofs.Bf.encryptUnit_eq hc ⟨l, r⟩, Proofs.Bf.decryptUnit_eq hc ⟨l, r⟩⟩

/-- **C47**: keyed encryption of one unit, from any memory. -/
theorem C47 (mem : BfCtx) (hm : bfCtxOK mem) (key : List Byte) (hk : key ≠ []) (l r : W32) :
    (do let ctx ← Bf.init mem key key.length
        Bf.encryptUnit ctx ⟨l, r⟩) =
      .ok ⟨(Blowfish.enc (Blowfish.expand Blowfish.piTable key) (l, r)).1,
           (Blowfish.enc (Blowfish.expand Blowfish.piTable key) (l, r)).2⟩ := by
  obtain ⟨ctx, h1, h2, h3⟩ := C47_init mem hm key hk
  rw [h1, bind_ok, (C47_units ctx h2 l r).1, h3]

/-- An empty key is undefined: a read outside the key or a division by zero. -/
theorem C45_empty (mem : BfCtx) : Bf.init mem [] 0 = .error .oobRead := by
  rw [Bf.init, Bf.keyPhase]
  have : Bf.keyWord [] 0 0 = .error .oobRead := rfl
  rw [forN_err 18 _ (mem.P, 0) .oobRead 0 (by omega) (by rw [forN, bind_ok]; dsimp only; rw [this]; rfl)]
  rfl

/-- ... even if the pointer points to something. -/
theorem C45_empty_readable (mem : BfCtx) (b : Byte) (rest : List Byte) :
    Bf.init mem (b :: rest) 0 = .error .divZero := by
  rw [Bf.init, Bf.keyPhase]
  have : Bf.keyWord (b :: rest) 0 0 = .error .divZero := rfl
  rw [forN_err 18 _ (mem.P, 0) .divZero 0 (by omega) (by rw [forN, bind_ok]; dsimp only; rw [this]; rfl)]
  rfl

/-- A context whose table is the initial one, and one unit on it: 16 rounds of the model. -/
theorem C47_example : bfCtxOK ⟨bfP0, bfS0⟩ ∧ Bf.encryptUnit ⟨bfP0, bfS0⟩ ⟨0#32, 0#32⟩ = .ok ⟨0x706D9FCC#32, 0x1792D23A#32⟩ :=
  ⟨Proofs.Bf.shape_S0 bfP0 rfl, by decide +kernel⟩

/-! ## C45 -/

theorem bfWords_inj {a b : BfCtx} (ha : bfCtxOK a) (hb : bfCtxOK b) (h : bfWords a = bfWords b) : a = b := by
  obtain ⟨a0, a1, a2, a3, hS, la0, la1, la2, la3⟩ := Proofs.Bf.shape_cases ha
  obtain ⟨b0, b1, b2, b3, hS', lb0, lb1, lb2, lb3⟩ := Proofs.Bf.shape_cases hb
  obtain ⟨hp, _, _⟩ := ha
  obtain ⟨hp', _, _⟩ := hb
  cases a; cases b
  simp only at hS hS' hp hp'
  subst hS hS'
  simp only [bfWords, List.flatten_cons, List.flatten_nil] at h
  obtain ⟨e, h⟩ := List.append_inj h (by omega)
  obtain ⟨e0, h⟩ := List.append_inj h (by omega)
  obtain ⟨e1, h⟩ := List.append_inj h (by omega)
  obtain ⟨e2, h⟩ := List.append_inj h (by omega)
  obtain ⟨e3, h⟩ := List.append_inj h (by omega)
  subst e e0 e1 e2 e3
  rfl

/-- **C45.** Two non-empty keys which agree in their first 72 bytes when repeated cyclically give the same context,
whatever memory it is built in. -/
theorem C45 (mem mem' : BfCtx) (hm : bfCtxOK mem) (hm' : bfCtxOK mem') (k k' : List Byte) (hk : k ≠ []) (hk' : k' ≠ [])
    (h : ∀ i, i < 72 → k[i % k.length]? = k'[i % k'.length]?) :
    ∃ ctx, Bf.init mem k k.length = .ok ctx ∧ Bf.init mem' k' k'.length = .ok ctx := by
  obtain ⟨c, h1, h2, h3⟩ := C47_init mem hm k hk
  obtain ⟨c', h1', h2', h3'⟩ := C47_init mem' hm' k' hk'
  have hw : ∀ i, i < 18 → Blowfish.keyWord k i = Blowfish.keyWord k' i := by
    intro i hi
    have hb : ∀ t, t < 4 → k.getD ((4 * i + t) % k.length) 0#8 = k'.getD ((4 * i + t) % k'.length) 0#8 := by
      intro t ht
      rw [List.getD, List.getD, h (4 * i + t) (by omega)]
    simp only [Blowfish.keyWord, List.range_succ, List.range_zero, List.nil_append, List.foldl_append, List.foldl_cons,
      List.foldl_nil]
    rw [hb 0 (by omega), hb 1 (by omega), hb 2 (by omega), hb 3 (by omega)]
  have hmix : Blowfish.mixKey Blowfish.piTable k = Blowfish.mixKey Blowfish.piTable k' := by
    unfold Blowfish.mixKey
    apply List.ext_getElem
    · simp
    · intro i _ _
      simp only [List.getElem_mapIdx]
      by_cases hi : i < 18
      · rw [if_pos hi, if_pos hi, hw i hi]
      · rw [if_neg hi, if_neg hi]
  have he : Blowfish.expand Blowfish.piTable k = Blowfish.expand Blowfish.piTable k' := by
    rw [Blowfish.expand, Blowfish.expand, hmix]
  refine ⟨c, h1, ?_⟩
  rw [h1', bfWords_inj h2' h2 (by rw [h3, h3', he])]

/-- A key and its repetition are equivalent. -/
theorem C45_repeat (mem : BfCtx) (hm : bfCtxOK mem) (k : List Byte) (hk : k ≠ []) (n : Nat) (hn : 0 < n) :
    ∃ ctx, Bf.init mem k k.length = .ok ctx ∧
      Bf.init mem (List.replicate n k).flatten (List.replicate n k).flatten.length = .ok ctx := by
  have hlen : ∀ n, (List.replicate n k).flatten.length = n * k.length := by
    intro n; simp
  have hget : ∀ n i, i < n * k.length → (List.replicate n k).flatten[i]? = k[i % k.length]? := by
    intro n
    induction n with
    | zero => intro i hi; omega
    | succ n ih =>
      intro i hi
      rw [List.replicate_succ, List.flatten_cons]
      rcases Nat.lt_or_ge i k.length with h | h
      · rw [List.getElem?_append_left h, Nat.mod_eq_of_lt h]
      · rw [List.getElem?_append_right h, ih _ (by rw [Nat.succ_mul] at hi; omega)]
        congr 1
        conv => rhs; rw [show i = i - k.length + k.length by omega]
        rw [Nat.add_mod_right]
  have hkpos : 0 < k.length := List.length_pos_iff.mpr hk
  have hpos : 0 < n * k.length := Nat.mul_pos hn hkpos
  refine C45 mem mem hm hm k _ hk (by
    intro he
    have := hlen n
    rw [he] at this
    simp only [List.length_nil] at this
    omega) ?_
  intro i _
  rw [hlen n, hget n _ (Nat.mod_lt _ hpos), Nat.mod_mul_left_mod]

/-- Bytes of the key after the 72nd have no effect. -/
theorem C45_tail (mem : BfCtx) (hm : bfCtxOK mem) (k t t' : List Byte) (hk : k.length = 72) :
    ∃ ctx, Bf.init mem (k ++ t) (k ++ t).length = .ok ctx ∧ Bf.init mem (k ++ t') (k ++ t').length = .ok ctx := by
  have hne : ∀ t : List Byte, k ++ t ≠ [] := by
    intro t he
    have := congrArg List.length he
    rw [List.length_append, hk] at this
    simp at this
  refine C45 mem mem hm hm _ _ (hne t) (hne t') ?_
  intro i hi
  rw [List.length_append, List.length_append, hk, Nat.mod_eq_of_lt (by omega), Nat.mod_eq_of_lt (by omega),
    List.getElem?_append_left (by omega), List.getElem?_append_left (by omega)]

/-- The keys "ab" and "abab" are such a pair; "ab" and "ba" are not, and give different subkeys. -/
example : ∃ ctx, Bf.init bfMem (str "ab") 2 = .ok ctx ∧ Bf.init bfMem (str "ababab") 6 = .ok ctx :=
  C45_repeat bfMem bfMem_ok (str "ab") (by decide) 3 (by decide)
theorem C45_example : Bf.keyPhase (str "ab") 2 bfMem.P ≠ Bf.keyPhase (str "ba") 2 bfMem.P := by decide +kernel

/-! ## C44 -/

/-- **C44, encryption.** Blocks of eight bytes on their own, the last one padded with zero bytes; the rest of the
output array is untouched; neither the memory of the local variable nor the old output matters. -/
theorem C44_encrypt (ctx : BfCtx) (hc : bfCtxOK ctx) (junk : List Byte) (hj : junk.length = 8) (x more output : List Byte)
    (ho : 8 * ((x.length + 7) / 8) ≤ output.length) :
    Bf.encrypt ctx junk (some (x ++ more)) x.length output =
      .ok (8 * ((x.length + 7) / 8),
        Blowfish.ecb (Blowfish.enc (bfWords ctx)) x ++ output.drop (8 * ((x.length + 7) / 8))) := by
  have h := Proofs.Bf.generic_eq (Bf.encryptUnit ctx) (Blowfish.enc (bfWords ctx)) (Proofs.Bf.encryptUnit_eq hc)
    (some (x ++ more)) junk output x.length hj (by simp) ho
  rw [Option.getD_some, List.take_left' rfl] at h
  exact h

/-- **C44, decryption.** -/
theorem C44_decrypt (ctx : BfCtx) (hc : bfCtxOK ctx) (junk : List Byte) (hj : junk.length = 8) (x more output : List Byte)
    (ho : 8 * ((x.length + 7) / 8) ≤ output.length) :
    Bf.decrypt ctx junk (some (x ++ more)) x.length output =
      .ok (8 * ((x.length + 7) / 8),
        Blowfish.ecb (Blowfish.dec (bfWords ctx)) x ++ output.drop (8 * ((x.length + 7) / 8))) := by
  have h := Proofs.Bf.generic_eq (Bf.decryptUnit ctx) (Blowfish.dec (bfWords ctx)) (Proofs.Bf.decryptUnit_eq hc)
    (some (x ++ more)) junk output x.length hj (by simp) ho
  rw [Option.getD_some, List.take_left' rfl] at h
  exact h

/-- **C44, in place.** With the same array for input and output the result is the same. -/
theorem C44_inplace (ctx : BfCtx) (hc : bfCtxOK ctx) (junk : List Byte) (hj : junk.length = 8) (x more : List Byte)
    (ho : 8 * ((x.length + 7) / 8) ≤ (x ++ more).length) :
    Bf.encrypt ctx junk none x.length (x ++ more) =
      .ok (8 * ((x.length + 7) / 8),
        Blowfish.ecb (Blowfish.enc (bfWords ctx)) x ++ (x ++ more).drop (8 * ((x.length + 7) / 8))) ∧
    Bf.decrypt ctx junk none x.length (x ++ more) =
      .ok (8 * ((x.length + 7) / 8),
        Blowfish.ecb (Blowfish.dec (bfWords ctx)) x ++ (x ++ more).drop (8 * ((x.length + 7) / 8))) := by
  have h := Proofs.Bf.generic_eq (Bf.encryptUnit ctx) (Blowfish.enc (bfWords ctx)) (Proofs.Bf.encryptUnit_eq hc)
    none junk (x ++ more) x.length hj (by simp) ho
  have h' := Proofs.Bf.generic_eq (Bf.decryptUnit ctx) (Blowfish.dec (bfWords ctx)) (Proofs.Bf.decryptUnit_eq hc)
    none junk (x ++ more) x.length hj (by simp) ho
  rw [Option.getD_none, List.take_left' rfl] at h h'
  exact ⟨h, h'⟩

/-- **C44, blocks are independent.** Block number `i` of the result depends on block `i` of the padded input only,
read and written as two big-endian halves. -/
theorem C44_blocks (f : W32 × W32 → W32 × W32) (x : List Byte) (i : Nat) (hi : i < (x.length + 7) / 8) :
    ((Blowfish.ecb f x).drop (8 * i)).take 8 =
      Blowfish.onBlock f (((x ++ List.replicate (8 * ((x.length + 7) / 8) - x.length) 0#8).drop (8 * i)).take 8) ∧
    (Blowfish.ecb f x).length = 8 * ((x.length + 7) / 8) :=
  ⟨Proofs.Bf.pre_block f x _ i hi, Proofs.Bf.ecb_length f x⟩

/-- The halves are big endian. -/
example : Blowfish.onBlock (fun x => x) [1#8, 2#8, 3#8, 4#8, 5#8, 6#8, 7#8, 8#8] = [1#8, 2#8, 3#8, 4#8, 5#8, 6#8, 7#8, 8#8] ∧
    Blowfish.word [1#8, 2#8, 3#8, 4#8] = 0x01020304#32 := by decide

/-! ## C43 -/

/-- **C43, units.** On every context. -/
theorem C43_units (ctx : BfCtx) (hc : bfCtxOK ctx) (u : BfUnit) :
    (Bf.encryptUnit ctx u >>= Bf.decryptUnit ctx) = .ok u ∧ (Bf.decryptUnit ctx u >>= Bf.encryptUnit ctx) = .ok u := by
  constructor
  · rw [Proofs.Bf.encryptUnit_eq hc, bind_ok, Proofs.Bf.decryptUnit_eq hc, Proofs.Bf.pr_un, Proofs.Bf.dec_enc,
      Proofs.Bf.un_pr]
  · rw [Proofs.Bf.decryptUnit_eq hc, bind_ok, Proofs.Bf.encryptUnit_eq hc, Proofs.Bf.pr_un, Proofs.Bf.enc_dec,
      Proofs.Bf.un_pr]

/-- **C43.** For every context, every message and every pair of large enough output arrays, decrypting what
encryption wrote gives the message padded with zero bytes. -/
theorem C43 (ctx : BfCtx) (hc : bfCtxOK ctx) (junk junk' : List Byte) (hj : junk.length = 8) (hj' : junk'.length = 8)
    (x out out' : List Byte) (ho : 8 * ((x.length + 7) / 8) ≤ out.length) (ho' : 8 * ((x.length + 7) / 8) ≤ out'.length) :
    ∃ n c d, Bf.encrypt ctx junk (some x) x.length out = .ok (n, c) ∧
      Bf.decrypt ctx junk' (some c) n out' = .ok (n, d) ∧
      n = 8 * ((x.length + 7) / 8) ∧
      d.take n = x ++ List.replicate (n - x.length) 0#8 := by
  have h1 := C44_encrypt ctx hc junk hj x [] out ho
  rw [List.append_nil] at h1
  have hl := Proofs.Bf.ecb_length (Blowfish.enc (bfWords ctx)) x
  have hl' : (Blowfish.ecb (Blowfish.enc (bfWords ctx)) x).length = 8 * ((x.length + 7) / 8) := hl
  have e8 : 8 * ((8 * ((x.length + 7) / 8) + 7) / 8) = 8 * ((x.length + 7) / 8) := by omega
  have h2 := C44_decrypt ctx hc junk' hj' (Blowfish.ecb (Blowfish.enc (bfWords ctx)) x)
    (out.drop (8 * ((x.length + 7) / 8))) out' (by rw [hl', e8]; exact ho')
  rw [hl', e8] at h2
  refine ⟨_, _, _, h1, h2, rfl, ?_⟩
  rw [Proofs.Bf.ecb_comp, Proofs.Bf.ecb_id _ (fun y => Proofs.Bf.dec_enc _ y)]
  have hp : (Blowfish.pad x).length = 8 * ((x.length + 7) / 8) := Proofs.Bf.pad_length x
  rw [List.take_left' hp]
  rfl

/-- **C43** for every key: initialise, encrypt, decrypt. -/
theorem C43_keys (mem : BfCtx) (hm : bfCtxOK mem) (key : List Byte) (hk : key ≠ []) (junk junk' : List Byte)
    (hj : junk.length = 8) (hj' : junk'.length = 8)
    (x out out' : List Byte) (ho : 8 * ((x.length + 7) / 8) ≤ out.length) (ho' : 8 * ((x.length + 7) / 8) ≤ out'.length) :
    ∃ d, (do let ctx ← Bf.init mem key key.length
             let r ← Bf.encrypt ctx junk (some x) x.length out
             Bf.decrypt ctx junk' (some r.2) r.1 out') = .ok (8 * ((x.length + 7) / 8), d) ∧
      d.take x.length = x ∧ (d.take (8 * ((x.length + 7) / 8))).drop x.length =
        List.replicate (8 * ((x.length + 7) / 8) - x.length) 0#8 := by
  obtain ⟨ctx, h1, h2, _⟩ := C47_init mem hm key hk
  obtain ⟨n, c, d, e1, e2, e3, e4⟩ := C43 ctx h2 junk junk' hj hj' x out out' ho ho'
  refine ⟨d, ?_, ?_, ?_⟩
  · rw [h1, bind_ok, e1, bind_ok]
    dsimp only
    rw [e2, e3]
  · have : (d.take n).take x.length = x := by rw [e4, List.take_left' rfl]
    rw [List.take_take, Nat.min_eq_left (by omega)] at this
    exact this
  · rw [← e3, e4, List.drop_left' rfl]

/-- A key, a message of thirteen bytes and output arrays that meet the hypotheses. -/
example := C43_keys bfMem bfMem_ok (str "a key") (by decide) (List.replicate 8 0xaa#8) (List.replicate 8 0xbb#8) rfl rfl
  (str "thirteen byte") (List.replicate 16 0#8) (List.replicate 20 1#8) (by decide) (by decide)

/-! ## C46 -/

/-- Every argument is passed to the two-argument function as a pointer to its bytes and their number. -/
theorem arg_split (arg : Bf.Arg) (hok : BfArg.ok arg) : ∃ more, ∀ ctx unp,
    Bf.encryptArg ctx unp arg = Bf.cppEncrypt ctx unp (BfArg.bytes arg ++ more) (BfArg.bytes arg).length ∧
    Bf.decryptArg ctx unp arg = Bf.cppDecrypt ctx unp (BfArg.bytes arg ++ more) (BfArg.bytes arg).length := by
  cases arg with
  | seq m n =>
    refine ⟨m.drop n, fun ctx unp => ?_⟩
    have : (m.take n).length = n := by rw [List.length_take]; exact Nat.min_eq_left hok
    rw [BfArg.bytes, List.take_append_drop, this]
    exact ⟨rfl, rfl⟩
  | cs m =>
    obtain ⟨q1, q2, q3⟩ := Proofs.strlen_take m hok
    refine ⟨m.drop (m.takeWhile (fun b => b ≠ 0#8)).length, fun ctx unp => ?_⟩
    rw [BfArg.bytes]
    have e : m.takeWhile (fun b => b ≠ 0#8) ++ m.drop (m.takeWhile (fun b => b ≠ 0#8)).length = m := by
      conv_lhs => lhs; rw [← q3]
      exact List.take_append_drop _ _
    rw [e, Bf.encryptArg, Bf.decryptArg, q1, bind_ok, bind_ok]
    exact ⟨rfl, rfl⟩
  | str s => exact ⟨[0#8], fun _ _ => ⟨rfl, rfl⟩⟩
  | sd s => exact ⟨[0#8], fun _ _ => ⟨rfl, rfl⟩⟩

/-- **C46, when the buffer is large enough.** `Blowfish::encrypt` by any overload of a message whose length is not
1, 2 or 3 modulo 8 returns the encryption and `Blowfish::decrypt` the decryption. -/
theorem C46_partial (ctx : BfCtx) (hc : bfCtxOK ctx) (junk : List Byte) (hj : junk.length = 8) (arg : Bf.Arg)
    (hok : BfArg.ok arg) (hx : (BfArg.bytes arg).length % 8 = 0 ∨ 4 ≤ (BfArg.bytes arg).length % 8) :
    Bf.encryptArg ctx junk arg = .ok (Blowfish.ecb (Blowfish.enc (bfWords ctx)) (BfArg.bytes arg)) ∧
    Bf.decryptArg ctx junk arg = .ok (Blowfish.ecb (Blowfish.dec (bfWords ctx)) (BfArg.bytes arg)) := by
  obtain ⟨more, hs⟩ := arg_split arg hok
  rw [(hs ctx junk).1, (hs ctx junk).2]
  generalize BfArg.bytes arg = x at *
  have h1 := C44_encrypt ctx hc junk hj x more (List.replicate (x.length + x.length % 8) 0#8)
    (by rw [List.length_replicate]; omega)
  have h2 := C44_decrypt ctx hc junk hj x more (List.replicate (x.length + x.length % 8) 0#8)
    (by rw [List.length_replicate]; omega)
  constructor
  · have hl : (Blowfish.ecb (Blowfish.enc (bfWords ctx)) x).length = 8 * ((x.length + 7) / 8) :=
      Proofs.Bf.ecb_length _ x
    rw [Bf.cppEncrypt, h1, bind_ok]
    rw [rds_ok (by rw [List.length_append, hl]; omega), List.drop_zero, List.take_left' hl]
  · have hl : (Blowfish.ecb (Blowfish.dec (bfWords ctx)) x).length = 8 * ((x.length + 7) / 8) :=
      Proofs.Bf.ecb_length _ x
    rw [Bf.cppDecrypt, h2, bind_ok]
    rw [rds_ok (by rw [List.length_append, hl]; omega), List.drop_zero, List.take_left' hl]

/-- **C46, violation.** For every other length both write outside the heap block they allocated, whatever the
overload. -/
theorem C46_violation (ctx : BfCtx) (hc : bfCtxOK ctx) (junk : List Byte) (hj : junk.length = 8) (arg : Bf.Arg)
    (hok : BfArg.ok arg) (hx : (BfArg.bytes arg).length % 8 = 1 ∨ (BfArg.bytes arg).length % 8 = 2 ∨
      (BfArg.bytes arg).length % 8 = 3) :
    Bf.encryptArg ctx junk arg = .error .oobWrite ∧ Bf.decryptArg ctx junk arg = .error .oobWrite := by
  obtain ⟨more, hs⟩ := arg_split arg hok
  rw [(hs ctx junk).1, (hs ctx junk).2]
  generalize BfArg.bytes arg = x at *
  constructor
  · rw [Bf.cppEncrypt, Bf.encrypt, Proofs.Bf.generic_overflow (Bf.encryptUnit ctx) (Blowfish.enc (bfWords ctx))
      (Proofs.Bf.encryptUnit_eq hc) (some (x ++ more)) junk _ x.length hj (by simp) (by rw [List.length_replicate]; omega)
      (by rw [List.length_replicate, Blowfish.blocks]; omega)]
    rfl
  · rw [Bf.cppDecrypt, Bf.decrypt, Proofs.Bf.generic_overflow (Bf.decryptUnit ctx) (Blowfish.dec (bfWords ctx))
      (Proofs.Bf.decryptUnit_eq hc) (some (x ++ more)) junk _ x.length hj (by simp) (by rw [List.length_replicate]; omega)
      (by rw [List.length_replicate, Blowfish.blocks]; omega)]
    rfl

/-- **C46, exactly.** -/
theorem C46_exact (ctx : BfCtx) (hc : bfCtxOK ctx) (junk : List Byte) (hj : junk.length = 8) (arg : Bf.Arg)
    (hok : BfArg.ok arg) :
    (∃ y, Bf.encryptArg ctx junk arg = .ok y) ↔
      ¬ (1 ≤ (BfArg.bytes arg).length % 8 ∧ (BfArg.bytes arg).length % 8 ≤ 3) := by
  constructor
  · intro ⟨y, hy⟩ hr
    rw [(C46_violation ctx hc junk hj arg hok (by omega)).1] at hy
    cases hy
  · intro hr
    exact ⟨_, (C46_partial ctx hc junk hj arg hok (by omega)).1⟩

/-- The round trip through the C++ class, for the messages it can encrypt, by any overloads (as C string only if
the ciphertext contains no zero byte). -/
theorem C46_roundtrip (ctx : BfCtx) (hc : bfCtxOK ctx) (junk junk' : List Byte) (hj : junk.length = 8)
    (hj' : junk'.length = 8) (arg : Bf.Arg) (hok : BfArg.ok arg)
    (hx : (BfArg.bytes arg).length % 8 = 0 ∨ 4 ≤ (BfArg.bytes arg).length % 8) :
    ∃ y, Bf.encryptArg ctx junk arg = .ok y ∧ ∀ arg', BfArg.ok arg' → BfArg.bytes arg' = y →
      Bf.decryptArg ctx junk' arg' = .ok (BfArg.bytes arg ++
        List.replicate (8 * (((BfArg.bytes arg).length + 7) / 8) - (BfArg.bytes arg).length) 0#8) := by
  refine ⟨_, (C46_partial ctx hc junk hj arg hok hx).1, ?_⟩
  intro arg' hok' e
  have hl : (Blowfish.ecb (Blowfish.enc (bfWords ctx)) (BfArg.bytes arg)).length = 8 * (((BfArg.bytes arg).length + 7) / 8) :=
    Proofs.Bf.ecb_length _ _
  rw [(C46_partial ctx hc junk' hj' arg' hok' (by rw [e, hl]; omega)).2, e,
    Proofs.Bf.ecb_comp, Proofs.Bf.ecb_id _ (fun y => Proofs.Bf.dec_enc _ y)]
  rfl

/-! ## C61 -/

/-- **C61, exact.** The constructor from `std::string` is the constructor from the C string: it uses the bytes before the
first zero byte only. -/
theorem C61_exact (mem : BfCtx) (hm : bfCtxOK mem) (s : List Byte) (hs : s.takeWhile (fun b => b ≠ 0#8) ≠ []) :
    ∃ ctx, Bf.create mem (.str s) = .ok ctx ∧ bfCtxOK ctx ∧
      bfWords ctx = Blowfish.expand Blowfish.piTable (s.takeWhile (fun b => b ≠ 0#8)) := by
  have e : (s ++ [0#8]).takeWhile (fun b => b ≠ 0#8) = s.takeWhile (fun b => b ≠ 0#8) := by
    induction s with
    | nil => rfl
    | cons b s ih =>
      rw [List.cons_append, List.takeWhile_cons, List.takeWhile_cons]
      split
      · next h =>
        rcases Classical.em (s.takeWhile (fun b => b ≠ 0#8) = []) with h0 | h0
        · congr 1
          cases s with
          | nil => rfl
          | cons c s =>
            rw [List.takeWhile_cons] at h0
            rw [List.cons_append, List.takeWhile_cons, List.takeWhile_cons]
            split at h0
            · cases h0
            · next h1 => rw [if_neg h1, if_neg h1]
        · rw [ih h0]
      · rfl
  have h := C47_create mem hm (.cs (s ++ [0#8])) (by simp [BfArg.ok]) (by rw [BfArg.bytes, e]; exact hs) (by intro s h; cases h)
  rw [BfArg.bytes, e] at h
  exact h

/-- A key string without zero bytes is used as it is. -/
theorem C61_partial (mem : BfCtx) (hm : bfCtxOK mem) (k : List Byte) (hk : k ≠ []) (hz : 0#8 ∉ k) :
    ∃ ctx, Bf.create mem (.str k) = .ok ctx ∧ bfCtxOK ctx ∧ bfWords ctx = Blowfish.expand Blowfish.piTable k := by
  have e : k.takeWhile (fun b => b ≠ 0#8) = k := by
    have := List.takeWhile_append_of_pos (p := fun b => decide (b ≠ 0#8)) (l₁ := k) (l₂ := []) (by
      intro b hb
      simp only [ne_eq, decide_eq_true_eq]
      intro h; rw [h] at hb; exact hz hb)
    rwa [List.append_nil, List.takeWhile_nil, List.append_nil] at this
  have := C61_exact mem hm k (by rw [e]; exact hk)
  rw [e] at this
  exact this

/-- **C61, violation.** Key strings that agree up to a zero byte give the same context, and one that begins with a zero
byte divides by zero, whatever follows. -/
theorem C61_violation (mem : BfCtx) (hm : bfCtxOK mem) (k r r' : List Byte) (hk : k ≠ []) (hz : 0#8 ∉ k) :
    (∃ ctx, Bf.create mem (.str (k ++ 0#8 :: r)) = .ok ctx ∧ Bf.create mem (.str (k ++ 0#8 :: r')) = .ok ctx) ∧
    Bf.create mem (.str (0#8 :: r)) = .error .divZero := by
  have e : ∀ r : List Byte, (k ++ 0#8 :: r).takeWhile (fun b => b ≠ 0#8) = k := by
    intro r
    rw [List.takeWhile_append_of_pos (by
      intro b hb
      simp only [ne_eq, decide_eq_true_eq]
      intro h; rw [h] at hb; exact hz hb)]
    simp
  constructor
  · obtain ⟨c, h1, h2, h3⟩ := C61_exact mem hm (k ++ 0#8 :: r) (by rw [e]; exact hk)
    obtain ⟨c', h1', h2', h3'⟩ := C61_exact mem hm (k ++ 0#8 :: r') (by rw [e]; exact hk)
    rw [e] at h3 h3'
    exact ⟨c, h1, by rw [h1', bfWords_inj h2' h2 (by rw [h3, h3'])]⟩
  · have hs : strlen (0#8 :: r ++ [0#8]) = .ok 0 := Proofs.strlen_cstr [] (r ++ [0#8]) (by simp)
    rw [Bf.create, hs, bind_ok, List.cons_append]
    exact C45_empty_readable mem _ _

/-- For example "a\0b" and "a\0c". -/
example : ∃ ctx, Bf.create bfMem (.str [0x61#8, 0#8, 0x62#8]) = .ok ctx ∧ Bf.create bfMem (.str [0x61#8, 0#8, 0x63#8]) = .ok ctx :=
  (C61_violation bfMem bfMem_ok [0x61#8] [0x62#8] [0x63#8] (by decide) (by decide)).1

/-! ## C68: objects -/

/-- What a call must return: Schneier's cipher in ECB mode with the key of the object. -/
noncomputable def bfResult (key : List Byte) (c : Bf.BfCall) : List Byte :=
  if c.enc then Blowfish.ecb (Blowfish.enc (Blowfish.expand Blowfish.piTable key)) (BfArg.bytes c.arg)
  else Blowfish.ecb (Blowfish.dec (Blowfish.expand Blowfish.piTable key)) (BfArg.bytes c.arg)

/-- A call on valid memory whose data length is not one of those of C46. -/
def bfCallOK (c : Bf.BfCall) : Prop :=
  c.unp.length = 8 ∧ BfArg.ok c.arg ∧ ((BfArg.bytes c.arg).length % 8 = 0 ∨ 4 ≤ (BfArg.bytes c.arg).length % 8)

/-- **C68** (partial: lengths 1, 2, 3 modulo 8 and `std::string` keys with zero bytes are missing, where the claim is false, C46,
C61). An object constructed from any non-empty key in any form, in any memory: every sequence of `encrypt` and
`decrypt` calls of any overloads returns the published cipher's result for each. -/
theorem C68_partial (mem : BfCtx) (hm : bfCtxOK mem) (key : Bf.Arg) (hok : BfArg.ok key) (hk : BfArg.bytes key ≠ [])
    (hs : ∀ s, key = .str s → 0#8 ∉ s) (l : List Bf.BfCall) (hl : ∀ c ∈ l, bfCallOK c) :
    (do let ctx ← Bf.create mem key
        Bf.calls ctx l) = .ok (l.map (bfResult (BfArg.bytes key))) := by
  have h : ∃ ctx, Bf.create mem key = .ok ctx ∧ bfCtxOK ctx ∧
      bfWords ctx = Blowfish.expand Blowfish.piTable (BfArg.bytes key) := by
    cases key with
    | str s => exact C61_partial mem hm s hk (hs s rfl)
    | seq m n => exact C47_create mem hm _ hok hk (by intro s h; cases h)
    | cs m => exact C47_create mem hm _ hok hk (by intro s h; cases h)
    | sd s => exact C47_create mem hm _ hok hk (by intro s h; cases h)
  obtain ⟨ctx, h1, h2, h3⟩ := h
  rw [h1, bind_ok]
  clear h1
  induction l with
  | nil => rfl
  | cons c l ih =>
    obtain ⟨c1, c2, c3⟩ := hl c (List.mem_cons_self ..)
    have hp := C46_partial ctx h2 c.unp c1 c.arg c2 c3
    rw [Bf.calls, ih (fun c hc => hl c (List.mem_cons_of_mem _ hc))]
    rw [hp.1, hp.2, List.map_cons, bfResult, ← h3]
    cases c.enc <;> rfl

/-- Such a history. -/
example : bfCallOK ⟨true, List.replicate 8 0xaa#8, .cs (str "attack" ++ [0#8, 7#8])⟩ ∧
    bfCallOK ⟨false, List.replicate 8 0x17#8, .seq (List.replicate 20 0#8) 16⟩ := by
  refine ⟨⟨by decide, ?_, ?_⟩, ⟨by decide, ?_, ?_⟩⟩
  · show 0#8 ∈ str "attack" ++ [0#8, 7#8]; decide
  · right; show 4 ≤ ((str "attack" ++ [0#8, 7#8]).takeWhile (fun b => b ≠ 0#8)).length % 8; decide
  · show 16 ≤ (List.replicate 20 0#8).length; decide
  · left; show ((List.replicate 20 0#8).take 16).length % 8 = 0; decide

end Pgfe.Props
