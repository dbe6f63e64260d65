import Verif.Proofs.TraceLeak
import Verif.Props.Otp
/-!
# The trace of HOTP
-/
namespace Pgfe.Proofs.Trace
open Pgfe.Model Pgfe.Spec Pgfe.Props Pgfe.Proofs.Otp

theorem reverse_same {b b' : List Byte} (h : L b b') (i j : Nat) : Same L (Tr.reverse b i j) (Tr.reverse b' i j) := by
  induction hk : j - i using Nat.strongRecOn generalizing b b' i j with
  | _ m ih =>
    rw [Tr.reverse, Tr.reverse]
    refine Same.br rfl ?_
    by_cases hij : i < j
    · rw [dif_pos hij, dif_pos hij]
      rd! h
      rd! h
      refine Same.seq (Same.wr _ _ _ _ h) (fun _ _ h => ?_)
      refine Same.seq (Same.wr _ _ _ _ h) (fun _ _ h => ?_)
      exact ih _ (by omega) h _ _ rfl
    · rw [dif_neg hij, dif_neg hij]
      exact Same.ret h

theorem pgfeHmac_same (a : Alg) (g g' : HmacCtx.Mem (a.impl 0)) (hg : hmacMemOK a g) (hg' : hmacMemOK a g')
    {k k' : List Byte} (hk : L k k') (n : Nat) {x x' : List Byte} (hx : L x x') (m : Nat) {o o' : List Byte} (ho : L o o') :
    Same L (Tr.pgfeHmac a g k n x m o) (Tr.pgfeHmac a g' k' n x' m o') := by
  obtain ⟨M, R, B, hM⟩ := exists_blind a 0
  have one := macOneShot_same B a.blockSize a.digestSize
    ⟨hM _ _ hg.1.1 hg'.1.1, hg.1.2.1.trans hg'.1.2.1.symm, hg.1.2.2.trans hg'.1.2.2.symm⟩
    (hg.2.1.trans hg'.2.1.symm) (hM _ _ hg.2.2 hg'.2.2) hk n hx m ho
  cases a <;> dsimp only [Tr.pgfeHmac] <;> first | with_reducible exact Same.ret ho | exact one

/-- Continue with the known results. -/
theorem Same.at {α β γ δ : Type} {S : γ → δ → Prop} {R : α → β → Prop} {m : T α} {m' : T β} {f : α → T γ} {f' : β → T δ}
    (h : Same R m m') {a : α} {b : β} (ha : m.res = .ok a) (hb : m'.res = .ok b) (k : Same S (f a) (f' b)) :
    Same S (m >>= f) (m' >>= f') := by
  refine Same.seq (R := fun x y => x = a ∧ y = b) ⟨h.tr, ?_⟩ (fun x y hxy => by rw [hxy.1, hxy.2]; exact k)
  rw [ha, hb]; exact ⟨rfl, rfl⟩

theorem SameM.at {e : Event → Event} {α β γ δ : Type} {S : γ → δ → Prop} {R : α → β → Prop} {m : T α} {m' : T β} {f : α → T γ}
    {f' : β → T δ} (h : SameM e R m m') {a : α} {b : β} (ha : m.res = .ok a) (hb : m'.res = .ok b)
    (k : SameM e S (f a) (f' b)) : SameM e S (m >>= f) (m' >>= f') := by
  refine SameM.seq (R := fun x y => x = a ∧ y = b) ⟨h.tr, ?_⟩ (fun x y hxy => by rw [hxy.1, hxy.2]; exact k)
  rw [ha, hb]; exact ⟨rfl, rfl⟩

/-- The offset of the dynamic truncation. -/
def off (h : List Byte) : Nat := (h.getLastD 0#8).toNat % 16

/-- The loop of the dynamic truncation. -/
def truncLoop (h : List Byte) (o : Nat) : T W32 := do
  let code ← T.forN 4 (fun i (code : W32) => do
    let code := code <<< 8
    let b ← T.rd .mac h (o + i)
    pure (code ||| b.setWidth 32)) 0#32
  pure (code <<< 1 >>> 1)

theorem last_ok (h : List Byte) (h0 : 0 < h.length) (hl : h.length < 2 ^ 64) :
    ∃ b, (T.rd .mac h ((h.length + 2 ^ 64 - 1) % 2 ^ 64)).res = .ok b ∧ (b &&& 0x0F#8).toNat = off h := by
  have e1 : (h.length + 2 ^ 64 - 1) % 2 ^ 64 = h.length - 1 := by omega
  have elast : h.getLastD 0#8 = h[h.length - 1]'(by omega) := by
    rw [List.getLastD_eq_getLast?, List.getLast?_eq_getElem?, List.getElem?_eq_getElem (by omega)]; rfl
  refine ⟨h[h.length - 1]'(by omega), ?_, ?_⟩
  · show Pgfe.rd _ _ = _
    rw [e1, rd_ok (by omega)]
  · rw [off, elast, BitVec.toNat_and]; exact Nat.and_two_pow_sub_one_eq_mod _ 4

theorem dyn_split (h : List Byte) (n : Nat) : Tr.dynTruncate h n =
    (T.rd .mac h ((n + 2 ^ 64 - 1) % 2 ^ 64) >>= fun last => truncLoop h (last &&& 0x0F#8).toNat) := rfl

theorem truncLoop_same {h h' : List Byte} (hh : L h h') (o : Nat) : Same Any (truncLoop h o) (truncLoop h' o) := by
  unfold truncLoop
  refine Same.seq (Same.forN 4 (R := Any) trivial (fun i a b _ => ?_)) (fun _ _ _ => Same.ret trivial)
  rd! hh
  exact Same.ret trivial

theorem truncLoop_coarse {h h' : List Byte} {o o' : Nat} (ho : o + 4 ≤ h.length) (ho' : o' + 4 ≤ h'.length) :
    SameM coarse Any (truncLoop h o) (truncLoop h' o') := by
  unfold truncLoop
  refine SameM.seq (SameM.forN 4 (R := Any) trivial (fun i a b hi _ => ?_)) (fun _ _ _ => SameM.ret trivial)
  refine SameM.seq (R := Any) ⟨rfl, ?_⟩ (fun _ _ _ => SameM.ret trivial)
  show Out Any (Pgfe.rd h (o + i)) (Pgfe.rd h' (o' + i))
  rw [rd_ok (by omega), rd_ok (by omega)]; trivial

theorem truncLoop_head (h : List Byte) (o : Nat) : ∃ r, (truncLoop h o).tr = .br true :: .rd .mac o 1 :: r := by
  unfold truncLoop T.forN
  have p : ∀ (f : Nat → W32 → T W32) (n : Nat), ∃ r, (T.iter (n + 1) f 0#32).tr = (f 0 0#32).tr ++ r := by
    intro f n
    induction n with
    | zero =>
      refine ⟨[], ?_⟩
      rw [T.iter]
      show ((pure 0#32 : T W32) >>= f 0).tr = _
      rw [tr_ok (a := 0#32) rfl, List.append_nil]; rfl
    | succ n ih =>
      obtain ⟨r, hr⟩ := ih
      rw [T.iter]
      obtain ⟨r', hr'⟩ := tr_prefix (T.iter (n + 1) f 0#32) (fun s => f (n + 1) s)
      exact ⟨r ++ r', by rw [hr', hr, List.append_assoc]⟩
  obtain ⟨r0, h0⟩ := tr_prefix (T.iter 4 (fun i (s : W32) => do
    let _ ← T.br true
    let b ← T.rd .mac h (o + i)
    pure ((s <<< 8) ||| b.setWidth 32)) 0#32 >>= fun s => T.br false >>= fun _ => pure s) (fun c => pure (c <<< 1 >>> 1))
  obtain ⟨r1, h1⟩ := tr_prefix (T.iter 4 (fun i (s : W32) => do
    let _ ← T.br true
    let b ← T.rd .mac h (o + i)
    pure ((s <<< 8) ||| b.setWidth 32)) 0#32) (fun s => T.br false >>= fun _ => pure s)
  obtain ⟨r2, h2⟩ := p (fun i (s : W32) => do
    let _ ← T.br true
    let b ← T.rd .mac h (o + i)
    pure ((s <<< 8) ||| b.setWidth 32)) 3
  obtain ⟨r3, h3⟩ := tr_prefix (T.rd .mac h (o + 0)) (fun b => (pure ((0#32 <<< 8) ||| b.setWidth 32) : T W32))
  refine ⟨r3 ++ r2 ++ r1 ++ r0, ?_⟩
  refine h0.trans ?_
  rw [h1, h2, tr_ok (a := true) rfl, h3]
  show [Event.br true] ++ ([Event.rd .mac o 1] ++ r3) ++ r2 ++ r1 ++ r0 = _
  simp

theorem dyn_same {h h' : List Byte} (hh : L h h') (h0 : 0 < h.length) (hl : h.length < 2 ^ 64) (e : off h = off h') :
    Same Any (Tr.dynTruncate h h.length) (Tr.dynTruncate h' h'.length) := by
  obtain ⟨b, r, ho⟩ := last_ok h h0 hl
  obtain ⟨b', r', ho'⟩ := last_ok h' (hh ▸ h0) (hh ▸ hl)
  have hh' : h.length = h'.length := hh
  rw [dyn_split, dyn_split]
  refine Same.at (R := Any) ?_ r r' ?_
  · rw [← hh']; exact Same.rd _ _ hh
  · rw [ho, ho', e]; exact truncLoop_same hh _

theorem dyn_coarse {h h' : List Byte} (hh : L h h') (h0 : 0 < h.length) (hl : h.length < 2 ^ 64) (e : off h + 4 ≤ h.length)
    (e' : off h' + 4 ≤ h'.length) : SameM coarse Any (Tr.dynTruncate h h.length) (Tr.dynTruncate h' h'.length) := by
  obtain ⟨b, r, ho⟩ := last_ok h h0 hl
  obtain ⟨b', r', ho'⟩ := last_ok h' (hh ▸ h0) (hh ▸ hl)
  have hh' : h.length = h'.length := hh
  rw [dyn_split, dyn_split]
  refine SameM.at (R := Any) (.lift ?_) r r' ?_
  · rw [← hh']; exact Same.rd _ _ hh
  · rw [ho, ho']; exact truncLoop_coarse e e'

theorem dyn_head (h : List Byte) (h0 : 0 < h.length) (hl : h.length < 2 ^ 64) :
    ∃ r, (Tr.dynTruncate h h.length).tr =
      .rd .mac ((h.length + 2 ^ 64 - 1) % 2 ^ 64) 1 :: .br true :: .rd .mac (off h) 1 :: r := by
  obtain ⟨b, r, ho⟩ := last_ok h h0 hl
  obtain ⟨t, ht⟩ := truncLoop_head h (off h)
  refine ⟨t, ?_⟩
  rw [dyn_split, tr_ok r, ho, ht]; rfl

/-- What follows the truncation. -/
def hotpTail (d : Nat) (result : W32) : T Nat := do
  let small ← T.br (decide (d < 10))
  if small then do
    let p ← T.rd .pow digitsPow d
    pure (result.toNat % p)
  else pure result.toNat

theorem hotpTail_same (d : Nat) (r r' : W32) : Same Any (hotpTail d r) (hotpTail d r') := by
  unfold hotpTail
  refine Same.br rfl ?_
  split
  · rd! rfl
    exact Same.ret trivial
  · exact Same.ret trivial

theorem hotp_split (a : Alg) (g : HmacCtx.Mem (a.impl 0)) (ch oh s : List Byte) (n : Nat) (c : W64) (d : Nat) :
    Tr.hotpGeneric a g ch oh s n c d = (T.wrs .counter ch 0 (memBytes8 c) >>= fun ch => Tr.reverse ch 0 7 >>= fun ch =>
      Tr.pgfeHmac a g s n ch 8 oh >>= fun oh => Tr.dynTruncate oh a.digestSize >>= hotpTail d) := rfl

/-- The MAC that HOTP truncates. -/
def hotpMac (a : Alg) (s : List Byte) (n : Nat) (c : W64) : List Byte :=
  hmac (stdHash a 0) (blockBytes a) ((s.take n).take (blockBytes a)) (bytesBE 8 c.toNat)

theorem hotpMac_len (a : Alg) (ha : isShake a = false) (s : List Byte) (n : Nat) (c : W64) :
    (hotpMac a s n c).length = outSize a 0 := by
  have hl8 := bytesBE_length 8 c.toNat
  exact hmac_length a ha _ _ (by rw [List.length_take]; omega) (by rw [hl8]; exact (okUpd8 a).2.2)

theorem hotp_results (a : Alg) (ha : isShake a = false) (m : Totp.Stack a) (hm : otpStackOK a m) (s : List Byte) (n : Nat)
    (hn : n ≤ s.length) (c : W64) : ∃ x, (T.wrs .counter m.counterH 0 (memBytes8 c)).res = .ok x ∧
      (Tr.reverse x 0 7).res = .ok (bytesBE 8 c.toNat) ∧
      (Tr.pgfeHmac a m.hmac s n (bytesBE 8 c.toNat) 8 m.outHash).res = .ok (hotpMac a s n c) := by
  obtain ⟨hg, h8, ho⟩ := hm
  have hcb := counterBlock c m.counterH h8
  have w := wrs_ok (b := m.counterH) (i := 0) (src := memBytes8 c) (by simp [memBytes8]; omega)
  rw [w, bind_ok] at hcb
  refine ⟨_, w, ?_, ?_⟩
  · rw [reverse_res]; exact hcb
  · rw [pgfeHmac_res]; exact hotp_mac a ha m.hmac hg m.outHash ho s n hn c

section
variable (a : Alg) (ha : isShake a = false) (m m' : Totp.Stack a) (hm : otpStackOK a m) (hm' : otpStackOK a m')
  (s s' : List Byte) (hs : L s s') (n : Nat) (hn : n ≤ s.length) (c c' : W64) (d : Nat)
include ha hm hm' hs hn

theorem hotp_same (e : off (hotpMac a s n c) = off (hotpMac a s' n c')) :
    (Tr.hotpGeneric a m.hmac m.counterH m.outHash s n c d).tr = (Tr.hotpGeneric a m'.hmac m'.counterH m'.outHash s' n c' d).tr := by
  obtain ⟨x, r1, r2, r3⟩ := hotp_results a ha m hm s n hn c
  obtain ⟨x', r1', r2', r3'⟩ := hotp_results a ha m' hm' s' n (hs ▸ hn) c'
  obtain ⟨p0, p1⟩ := outSize_pos a ha
  have l := hotpMac_len a ha s n c
  have l' := hotpMac_len a ha s' n c'
  rw [hotp_split, hotp_split]
  have w : Same L (T.wrs .counter m.counterH 0 (memBytes8 c)) (T.wrs .counter m'.counterH 0 (memBytes8 c')) :=
    Same.wrs _ _ (hm.2.1.trans hm'.2.1.symm) rfl
  have hx : L x x' := by have := w.res; rw [r1, r1'] at this; exact this
  refine (Same.at (S := Any) w r1 r1' ?_).tr
  refine Same.at (reverse_same hx 0 7) r2 r2' ?_
  refine Same.at (pgfeHmac_same a _ _ hm.1 hm'.1 hs n ((bytesBE_length 8 c.toNat).trans (bytesBE_length 8 c'.toNat).symm) 8
    (hm.2.2.trans hm'.2.2.symm)) r3 r3' ?_
  have D := dyn_same (l.trans l'.symm) (by omega) (by omega) e
  rw [l, l', ← digestSize_eq a ha] at D
  exact Same.seq D (fun _ _ _ => hotpTail_same _ _ _)

theorem hotp_coarse (e : off (hotpMac a s n c) + 4 ≤ outSize a 0) (e' : off (hotpMac a s' n c') + 4 ≤ outSize a 0) :
    (Tr.hotpGeneric a m.hmac m.counterH m.outHash s n c d).tr.map coarse =
      (Tr.hotpGeneric a m'.hmac m'.counterH m'.outHash s' n c' d).tr.map coarse := by
  obtain ⟨x, r1, r2, r3⟩ := hotp_results a ha m hm s n hn c
  obtain ⟨x', r1', r2', r3'⟩ := hotp_results a ha m' hm' s' n (hs ▸ hn) c'
  obtain ⟨p0, p1⟩ := outSize_pos a ha
  have l := hotpMac_len a ha s n c
  have l' := hotpMac_len a ha s' n c'
  rw [hotp_split, hotp_split]
  have w : Same L (T.wrs .counter m.counterH 0 (memBytes8 c)) (T.wrs .counter m'.counterH 0 (memBytes8 c')) :=
    Same.wrs _ _ (hm.2.1.trans hm'.2.1.symm) rfl
  have hx : L x x' := by have := w.res; rw [r1, r1'] at this; exact this
  refine (SameM.at (S := Any) (.lift w) r1 r1' ?_).tr
  refine SameM.at (.lift (reverse_same hx 0 7)) r2 r2' ?_
  refine SameM.at (.lift (pgfeHmac_same a _ _ hm.1 hm'.1 hs n
    ((bytesBE_length 8 c.toNat).trans (bytesBE_length 8 c'.toNat).symm) 8 (hm.2.2.trans hm'.2.2.symm))) r3 r3' ?_
  have D := dyn_coarse (l.trans l'.symm) (by omega) (by omega) (by omega) (by omega : off (hotpMac a s' n c') + 4 ≤ _)
  rw [l, l', ← digestSize_eq a ha] at D
  exact SameM.seq D (fun _ _ _ => .lift (hotpTail_same _ _ _))

theorem hotp_leak (e : (Tr.hotpGeneric a m.hmac m.counterH m.outHash s n c d).tr =
      (Tr.hotpGeneric a m'.hmac m'.counterH m'.outHash s' n c' d).tr) :
    off (hotpMac a s n c) = off (hotpMac a s' n c') := by
  obtain ⟨x, r1, r2, r3⟩ := hotp_results a ha m hm s n hn c
  obtain ⟨x', r1', r2', r3'⟩ := hotp_results a ha m' hm' s' n (hs ▸ hn) c'
  obtain ⟨p0, p1⟩ := outSize_pos a ha
  have l := hotpMac_len a ha s n c
  have l' := hotpMac_len a ha s' n c'
  rw [hotp_split, hotp_split] at e
  have w : Same L (T.wrs .counter m.counterH 0 (memBytes8 c)) (T.wrs .counter m'.counterH 0 (memBytes8 c')) :=
    Same.wrs _ _ (hm.2.1.trans hm'.2.1.symm) rfl
  have hx : L x x' := by have := w.res; rw [r1, r1'] at this; exact this
  have e1 := tr_second (SameM.lift (f := id) w) e r1 r1'
  have e2 := tr_second (SameM.lift (f := id) (reverse_same hx 0 7)) e1 r2 r2'
  have e3 := tr_second (SameM.lift (f := id) (pgfeHmac_same a _ _ hm.1 hm'.1 hs n
    ((bytesBE_length 8 c.toNat).trans (bytesBE_length 8 c'.toNat).symm) 8 (hm.2.2.trans hm'.2.2.symm))) e2 r3 r3'
  obtain ⟨t, ht⟩ := dyn_head (hotpMac a s n c) (by omega) (by omega)
  obtain ⟨t', ht'⟩ := dyn_head (hotpMac a s' n c') (by omega) (by omega)
  rw [l, ← digestSize_eq a ha] at ht
  rw [l', ← digestSize_eq a ha] at ht'
  obtain ⟨q, hq⟩ := tr_prefix (Tr.dynTruncate (hotpMac a s n c) a.digestSize) (hotpTail d)
  obtain ⟨q', hq'⟩ := tr_prefix (Tr.dynTruncate (hotpMac a s' n c') a.digestSize) (hotpTail d)
  rw [hq, hq', ht, ht'] at e3
  simp only [List.cons_append, List.cons.injEq, Event.rd.injEq, true_and, and_true] at e3
  exact e3.1
end

end Pgfe.Proofs.Trace
