import Verif.Model.Hmac
import Verif.Spec.Hmac
import Verif.Proofs.Alg
/-!
# HMAC over a correct hash implementation
-/
namespace Pgfe.Proofs.Hmac
open Pgfe.Model Pgfe.Spec Pgfe.Proofs.Hash

theorem splice_zero {α : Type} (b s : List α) (h : s.length = b.length) : splice b 0 s = s := by
  rw [splice, List.take_zero, List.nil_append, Nat.zero_add, h, List.drop_length, List.append_nil]

theorem arrcpy_ok (dest : List Byte) (bs : Nat) (key : List Byte) (n : Nat) (hd : dest.length = bs)
    (hn : n ≤ key.length) :
    arrcpy dest bs key n = .ok ((key.take n).take bs ++ List.replicate (bs - n) 0#8) := by
  rw [arrcpy]
  have hc : (if bs > n then n else bs) = min n bs := by split <;> omega
  rw [hc, rds_ok (by omega), bind_ok]
  have hl : ((key.drop 0).take (min n bs)).length = min n bs := by
    rw [List.drop_zero, List.length_take]; omega
  rw [wrs_ok (by rw [hl]; omega), bind_ok, arrinit, wrs_ok (by
    rw [splice_length (by rw [hl]; omega), List.length_replicate]; omega)]
  refine congrArg Except.ok ?_
  rw [splice, splice, List.take_zero, List.nil_append, Nat.zero_add, hl, List.length_replicate]
  rw [show bs - min n bs = bs - n by omega, List.take_take, Nat.min_comm bs n]
  rw [List.take_append_of_le_length (by rw [hl]; exact Nat.le_refl _),
    List.take_of_length_le (by rw [hl]; exact Nat.le_refl _), List.drop_zero]
  rw [List.drop_eq_nil_of_le (by
    rw [List.length_append, List.length_take, List.length_drop]; omega), List.append_nil]

/-- The loop of set_key. -/
theorem xorPads_ok (bs : Nat) (a b : List Byte) (ha : a.length = bs) (hb : b.length = bs) :
    HmacCtx.xorPads bs a b = .ok (a.map (· ^^^ iUnit), b.map (· ^^^ oUnit)) := by
  have key : ∀ (l : List Byte) (u : Byte) (i : Nat) (h : i < l.length),
      ((l.take i).map (· ^^^ u) ++ l.drop i)[i]? = some l[i] := by
    intro l u i h
    rw [List.getElem?_append_right (by rw [List.length_map, List.length_take]; omega), List.length_map, List.length_take,
      Nat.min_eq_left (by omega), Nat.sub_self, List.getElem?_drop, Nat.add_zero, List.getElem?_eq_getElem h]
  have set : ∀ (l : List Byte) (u : Byte) (i : Nat) (h : i < l.length),
      ((l.take i).map (· ^^^ u) ++ l.drop i).set i (l[i] ^^^ u) = (l.take (i + 1)).map (· ^^^ u) ++ l.drop (i + 1) := by
    intro l u i h
    have hl : ((l.take i).map (· ^^^ u)).length = i := by rw [List.length_map, List.length_take]; omega
    rw [List.set_append_right _ _ (by omega), hl, Nat.sub_self, List.drop_eq_getElem_cons h, List.set_cons_zero,
      List.take_succ_eq_append_getElem h, List.map_append, List.append_assoc]
    rfl
  obtain ⟨s, h1, h2⟩ := forN_inv
    (fun i (p : List Byte × List Byte) => p = ((a.take i).map (· ^^^ iUnit) ++ a.drop i, (b.take i).map (· ^^^ oUnit) ++ b.drop i))
    bs (fun i p => do
      let x ← rd p.1 i
      let p1 ← wr p.1 i (x ^^^ iUnit)
      let y ← rd p.2 i
      let p2 ← wr p.2 i (y ^^^ oUnit)
      .ok (p1, p2)) (a, b) (by simp) (by
    intro i p hi hp
    subst hp
    have hia : i < a.length := by omega
    have hib : i < b.length := by omega
    refine ⟨_, ?_, rfl⟩
    have hwa : i < ((a.take i).map (· ^^^ iUnit) ++ a.drop i).length := by
      simp only [List.length_append, List.length_map, List.length_take, List.length_drop]; omega
    have hwb : i < ((b.take i).map (· ^^^ oUnit) ++ b.drop i).length := by
      simp only [List.length_append, List.length_map, List.length_take, List.length_drop]; omega
    simp only [rd, key a iUnit i hia, key b oUnit i hib, bind_ok]
    rw [wr_ok _ hwa, bind_ok, wr_ok _ hwb, bind_ok, set a iUnit i hia, set b oUnit i hib])
  rw [HmacCtx.xorPads, h1, h2, List.take_of_length_le (by omega), List.take_of_length_le (by omega),
    List.drop_eq_nil_of_le (by omega), List.drop_eq_nil_of_le (by omega), List.append_nil, List.append_nil]

/-- The memory of a context: its arrays have the declared sizes. -/
def CtxOK {I : HashImpl} {H : List Byte → List Byte} (K : HashOK I H) (bs : Nat) (c : HmacCtx I) : Prop :=
  K.WF c.hash ∧ c.kIPad.length = bs ∧ c.kOPad.length = bs

/-- `c` is keyed with `k` and has absorbed `m`. -/
structure HInv {I : HashImpl} {H : List Byte → List Byte} (K : HashOK I H) (bs : Nat) (k m : List Byte)
    (c : HmacCtx I) : Prop where
  kl : k.length ≤ bs
  inv : K.Inv (xorPad bs k 0x36#8 ++ m) c.hash
  il : c.kIPad.length = bs
  op : c.kOPad = xorPad bs k 0x5c#8

theorem xorPad_length (bs : Nat) (k : List Byte) (u : Byte) (h : k.length ≤ bs) : (xorPad bs k u).length = bs := by
  simp [xorPad]; omega

section
variable {I : HashImpl} {H : List Byte → List Byte} (K : HashOK I H) (bs : Nat)

theorem init_ok (c : HmacCtx I) (h : CtxOK K bs c) (hu : K.okUpd bs) (ht : K.okTot bs) :
    ∃ c', HmacCtx.init I bs c = .ok c' ∧ HInv K bs [] [] c' := by
  obtain ⟨hw, hi, ho⟩ := h
  obtain ⟨c1, h1, h2⟩ := K.init_ok c.hash hw
  have hl : ∀ u : Byte, (List.replicate bs u).length = bs := fun u => List.length_replicate
  obtain ⟨c2, h3, h4⟩ := K.update_ok [] c1 (List.replicate bs iUnit) bs h2 hu (by rw [hl]; exact Nat.le_refl _)
    (by simpa using ht)
  have e : ∀ u : Byte, xorPad bs [] u = List.replicate bs u := by
    intro u; simp [xorPad]
  refine ⟨⟨c2, List.replicate bs iUnit, List.replicate bs oUnit⟩, ?_, Nat.zero_le _, ?_, hl _, (e _).symm⟩
  · rw [HmacCtx.init, h1, bind_ok, wrs_ok (by rw [hl]; omega), bind_ok, wrs_ok (by rw [hl]; omega), bind_ok,
      splice_zero _ _ (by rw [hl, hi]), splice_zero _ _ (by rw [hl, ho]), h3, bind_ok]
  · rw [e, List.append_nil]
    rw [List.nil_append, List.take_of_length_le (by rw [hl]; exact Nat.le_refl _)] at h4
    exact h4

theorem setKey_ok (c : HmacCtx I) (h : CtxOK K bs c) (hu : K.okUpd bs) (ht : K.okTot bs) (key : List Byte)
    (n : Nat) (hn : n ≤ key.length) :
    ∃ c', HmacCtx.setKey I bs c key n = .ok c' ∧ HInv K bs ((key.take n).take bs) [] c' := by
  obtain ⟨hw, hi, ho⟩ := h
  obtain ⟨c1, h1, h2⟩ := K.init_ok c.hash hw
  have hkl : ((key.take n).take bs ++ List.replicate (bs - n) 0#8).length = bs := by
    simp; omega
  have e : ∀ u : Byte, ((key.take n).take bs ++ List.replicate (bs - n) 0#8).map (· ^^^ u)
      = xorPad bs ((key.take n).take bs) u := by
    intro u
    rw [xorPad, List.length_take, List.length_take,
      show bs - min bs (min n key.length) = bs - n by omega]
  have hl : ∀ u, (xorPad bs ((key.take n).take bs) u).length = bs := fun u =>
    xorPad_length bs _ u (by rw [List.length_take]; omega)
  obtain ⟨c2, h3, h4⟩ := K.update_ok [] c1 (xorPad bs ((key.take n).take bs) 0x36#8) bs h2 hu
    (by rw [hl]; exact Nat.le_refl _) (by simpa using ht)
  refine ⟨⟨c2, xorPad bs ((key.take n).take bs) 0x36#8, xorPad bs ((key.take n).take bs) 0x5c#8⟩, ?_,
    by rw [List.length_take]; omega, ?_, hl _, rfl⟩
  · rw [HmacCtx.setKey, arrcpy_ok _ _ _ _ hi hn, bind_ok, arrcpy_ok _ _ _ _ ho hn, bind_ok,
      xorPads_ok bs _ _ hkl hkl, bind_ok, h1, bind_ok]
    dsimp only
    rw [e, e]
    exact (congrArg (fun x : C I.Ctx => x >>= _) h3)
  · rw [List.append_nil]
    rw [List.nil_append, List.take_of_length_le (by rw [hl]; exact Nat.le_refl _)] at h4
    exact h4

theorem update_ok (k m : List Byte) (c : HmacCtx I) (h : HInv K bs k m c) (x : List Byte) (n : Nat)
    (hu : K.okUpd n) (hn : n ≤ x.length) (ht : K.okTot (bs + m.length + n)) :
    ∃ c', HmacCtx.update I c (some x) n = .ok c' ∧ HInv K bs k (m ++ x.take n) c' := by
  obtain ⟨c1, h1, h2⟩ := K.update_ok _ c.hash x n h.inv hu hn (by
    rw [List.length_append, xorPad_length _ _ _ h.kl]; exact ht)
  exact ⟨{ c with hash := c1 }, by rw [HmacCtx.update, h1, bind_ok],
    h.kl, by rw [← List.append_assoc]; exact h2, h.il, h.op⟩

theorem feed_ok (parts : List (List Byte)) : ∀ (k m : List Byte) (c : HmacCtx I), HInv K bs k m c →
    (∀ p ∈ parts, K.okUpd p.length) → K.okTot (bs + m.length + parts.flatten.length) →
    ∃ c', HmacCtx.feed I c parts = .ok c' ∧ HInv K bs k (m ++ parts.flatten) c' := by
  induction parts with
  | nil => intro k m c h _ _; exact ⟨c, rfl, by simpa using h⟩
  | cons p r ih =>
    intro k m c h hu ht
    rw [List.flatten_cons, List.length_append] at ht
    obtain ⟨c1, h1, h2⟩ := update_ok K bs k m c h p p.length (hu p (List.mem_cons_self ..)) (Nat.le_refl _)
      (K.tot_mono _ _ (by omega) ht)
    rw [List.take_length] at h2
    obtain ⟨c2, h3, h4⟩ := ih k _ c1 h2 (fun q hq => hu q (List.mem_cons_of_mem _ hq))
      (by rw [List.length_append]
          have : bs + (m.length + p.length) + r.flatten.length = bs + m.length + (p.length + r.flatten.length) := by
            omega
          rw [this]; exact ht)
    exact ⟨c2, by rw [HmacCtx.feed, h1, bind_ok, h3],
      by rw [List.flatten_cons, ← List.append_assoc]; exact h4⟩

theorem digest_ok (k m : List Byte) (c : HmacCtx I) (h : HInv K bs k m c) (mid : List Byte) (g : I.Ctx)
    (hg : K.WF g) (hm : K.ds ≤ mid.length) (out : List Byte) (ho : K.ds ≤ out.length)
    (ht : K.okTot (bs + m.length)) (ht2 : K.okTot (bs + K.ds)) (hu : K.okUpd bs) (hud : K.okUpd K.ds) :
    ∃ c', HmacCtx.digest I bs K.ds mid g c out = .ok (c', hmacShort H bs k m ++ out.drop K.ds) ∧
      CtxOK K bs c' := by
  have hx := xorPad_length bs k 0x36#8 h.kl
  have hy := xorPad_length bs k 0x5c#8 h.kl
  obtain ⟨c1, h1, h2⟩ := K.digest_ok _ c.hash mid h.inv (by rw [List.length_append, hx]; exact ht) hm
  have hlen : (H (xorPad bs k 0x36#8 ++ m)).length = K.ds := K.len _
  have hc : HashOK.content [(some c.kOPad, bs), (some (H (xorPad bs k 0x36#8 ++ m) ++ mid.drop K.ds), K.ds)]
      = xorPad bs k 0x5c#8 ++ H (xorPad bs k 0x36#8 ++ m) := by
    simp only [HashOK.content, List.flatMap_cons, List.flatMap_nil, List.append_nil]
    rw [h.op, List.take_append_of_le_length (by omega), List.take_of_length_le (by omega),
      List.take_of_length_le (by omega)]
  have h3 := K.encodeMultiple_ok g hg
    [(some c.kOPad, bs), (some (H (xorPad bs k 0x36#8 ++ m) ++ mid.drop K.ds), K.ds)] out (by
      intro p hp x hx'
      simp only [List.mem_cons, List.not_mem_nil, or_false] at hp
      rcases hp with rfl | rfl
      · simp only [Option.some.injEq] at hx'
        subst hx'
        exact ⟨hu, by rw [h.op, hy]; exact Nat.le_refl _⟩
      · simp only [Option.some.injEq] at hx'
        subst hx'
        exact ⟨hud, by rw [List.length_append, hlen]; omega⟩) (by rw [hc, List.length_append, hy, hlen]; exact ht2) ho
  rw [hc] at h3
  refine ⟨{ c with hash := c1 }, ?_, K.wf _ _ h2, h.il, by rw [h.op, hy]⟩
  rw [HmacCtx.digest, h1, bind_ok]
  dsimp only
  rw [h3, bind_ok]
  rfl

/-- Bytes an update call adds. -/
def updLen {I : HashImpl} : HmacCtx.Call I → Nat
  | .update y => y.length
  | _ => 0

/-- In a whole history. -/
theorem call_ok (n : Nat) (c : HmacCtx I) (x : HmacCtx.Call I)
    (hs : K.Safe n c.hash ∧ c.kIPad.length = bs ∧ c.kOPad.length = bs) (hn : bs ≤ n)
    (hu : K.okUpd bs) (hud : K.okUpd K.ds) (ht2 : K.okTot (bs + K.ds))
    (hx : match x with
      | .init => True
      | .setKey _ => True
      | .update y => K.okUpd y.length ∧ K.okTot (n + y.length)
      | .digest mid g out => K.WF g ∧ K.ds ≤ mid.length ∧ K.ds ≤ out.length ∧ K.okTot n) :
    ∃ c' n', HmacCtx.call I bs K.ds c x = .ok c' ∧ bs ≤ n' ∧
      n' ≤ n + updLen x ∧
      (K.Safe n' c'.hash ∧ c'.kIPad.length = bs ∧ c'.kOPad.length = bs) := by
  obtain ⟨hs, hi, ho⟩ := hs
  have htb : K.okTot bs := K.tot_mono _ _ (by omega) ht2
  have fresh : ∀ k c', HInv K bs k [] c' →
      (K.Safe bs c'.hash ∧ c'.kIPad.length = bs ∧ c'.kOPad.length = bs) := by
    intro k c' h
    have := K.safe _ _ h.inv
    rw [List.append_nil, xorPad_length _ _ _ h.kl] at this
    exact ⟨this, h.il, by rw [h.op, xorPad_length _ _ _ h.kl]⟩
  cases x with
  | init =>
    obtain ⟨c', h1, h2⟩ := init_ok K bs c ⟨K.wf _ _ hs, hi, ho⟩ hu htb
    exact ⟨c', bs, h1, Nat.le_refl _, by simpa [updLen] using hn, fresh _ _ h2⟩
  | setKey k =>
    obtain ⟨c', h1, h2⟩ := setKey_ok K bs c ⟨K.wf _ _ hs, hi, ho⟩ hu htb k k.length (Nat.le_refl _)
    exact ⟨c', bs, h1, Nat.le_refl _, by simpa [updLen] using hn, fresh _ _ h2⟩
  | update y =>
    obtain ⟨c1, h1, h2⟩ := K.safe_update n c.hash y y.length hs hx.1 (Nat.le_refl _) hx.2
    exact ⟨{ c with hash := c1 }, n + y.length, by rw [HmacCtx.call, HmacCtx.update, h1, bind_ok],
      by omega, Nat.le_refl _, h2, hi, ho⟩
  | digest mid g out =>
    obtain ⟨hg, hm, hout, ht⟩ := hx
    obtain ⟨c1, d, h1, hd, h2⟩ := K.safe_digest n c.hash mid hs ht hm
    have hc : HashOK.content [(some c.kOPad, bs), (some (d ++ mid.drop K.ds), K.ds)]
        = c.kOPad ++ d := by
      simp only [HashOK.content, List.flatMap_cons, List.flatMap_nil, List.append_nil]
      rw [List.take_append_of_le_length (by omega), List.take_of_length_le (by omega),
        List.take_of_length_le (by omega)]
    have h3 := K.encodeMultiple_ok g hg
      [(some c.kOPad, bs), (some (d ++ mid.drop K.ds), K.ds)] out (by
        intro p hp x hx'
        simp only [List.mem_cons, List.not_mem_nil, or_false] at hp
        rcases hp with rfl | rfl
        · simp only [Option.some.injEq] at hx'
          subst hx'
          exact ⟨hu, by omega⟩
        · simp only [Option.some.injEq] at hx'
          subst hx'
          exact ⟨hud, by rw [List.length_append, hd]; omega⟩) (by rw [hc, List.length_append, ho, hd]; exact ht2) hout
    refine ⟨{ c with hash := c1 }, n, ?_, hn, Nat.le_refl _, h2, hi, ho⟩
    rw [HmacCtx.call, HmacCtx.digest, h1, bind_ok]
    dsimp only
    rw [h3]
    rfl

end

end Pgfe.Proofs.Hmac
