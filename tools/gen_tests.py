#!/usr/bin/env python3
"""Writes lean/Verif/Tests/*.lean: the project's own tests (/repo/tests/cmake/*.cmake) on the model."""
import re, os
R='/repo/tests/cmake/'
O=os.path.join(os.path.dirname(__file__),'../lean/Verif/Tests/')
def vals(f,name):
    out=[]
    for i,l in enumerate(open(R+f),1):
        m=re.match(r'list\(APPEND '+name+r' (.*)\)',l.strip())
        if m: out+= [(x,i) for x in re.findall(r'"([^"]*)"',m.group(1)) or m.group(1).split()]
    return out
HEAD='''/-!
# %s

%s
Generated by tools/gen_tests.py from the expectations in /repo/tests.  These are *tests of the model*, evaluated by
the kernel; they are not claims of their own.  They show that the model computes what the project expects of the
program.
-/
namespace Pgfe.Tests
open Pgfe.Model

set_option maxRecDepth 100000

'''
D='hello'
names=['md5','sha1','sha224','sha256','sha384','sha512','sha512_224','sha512_256','sha3_224','sha3_256','sha3_384','sha3_512']
size=dict(md5=16,sha1=20,sha224=28,sha256=32,sha384=48,sha512=64,sha512_224=28,sha512_256=32,sha3_224=28,sha3_256=32,sha3_384=48,sha3_512=64)
def garb(n):
    if n=='md5': return 'garbageMd5'
    if n=='sha1': return '(garbage32 5)'
    if n in('sha224','sha256'): return '(garbage32 8)'
    if n.startswith('sha3_') or 'shake' in n: return 'garbageK'
    return 'garbage64'
# --- common
c='import Verif.Model.Hmac\n'+HEAD%('The test programs','')+'''/-- tests/c/mdtest.h:14-19, tests/c/shatest.h:15-20 and so on: `main` hashes its argument and prints the digest; `g`
is the content of the uninitialised context. -/
def hashMain (I : HashImpl) (g : I.Ctx) (n : Nat) (arg : List Byte) : C (List Byte) := do
  let out ← I.encodeDefault g (arg ++ [0#8]) (List.replicate n 0xA5#8)
  printHash out n

/-- Memory full of rubbish. -/
def garbageMd5 : Md5Ctx := ⟨List.replicate 4 0x5A5A5A5A#32, 77#64, List.replicate 64 0xC3#8⟩
/-- Memory full of rubbish. -/
def garbage32 (k : Nat) : ShaCtx 32 :=
  ⟨List.replicate k 0x5A5A5A5A#32, 7#32, 9#32, 12, List.replicate 64 0xC3#8⟩
/-- Memory full of rubbish. -/
def garbage64 : ShaCtx 64 :=
  ⟨List.replicate 8 0x5A5A5A5A5A5A5A5A#64, 7#64, 9#64, 12, List.replicate 128 0xC3#8⟩
/-- Memory full of rubbish. -/
def garbageK : KeccakCtx :=
  ⟨List.replicate 25 0x5A5A5A5A5A5A5A5A#64, List.replicate 192 0xC3#8, 1, 2, 3, 4, 5, true, 6, 7#8, 8, true⟩

/-- `main` of tests/c/hmactest.h:71-88: a key that starts with "0x" is parsed as hexadecimal. -/
def hmacMain (a : Alg) (g : HmacCtx.Mem (a.impl 0)) (rawKey data : List Byte) : C (List Byte) := do
  let buf := List.replicate 256 0x77#8
  let (key, keyLen) ← if rawKey.take 2 = str "0x" then do
      let (_, key) ← hexStringToHash (rawKey ++ [0#8]) buf
      let n ← hashLength buf (rawKey ++ [0#8])
      .ok (key, n)
    else .ok (splice buf 0 rawKey, rawKey.length)
  let out ← pgfeHmac a g key keyLen (data ++ [0#8]) data.length (List.replicate a.digestSize 0x99#8)
  printHash out a.digestSize

end Pgfe.Tests
'''
open(O+'Common.lean','w').write(c)
# --- hashes
hs=vals('hash_tests.cmake','HashResults_string1')
def block(sel,title):
    s='import Verif.Tests.Common\n'+HEAD%(title,'tests/cmake/hash_tests.cmake:47-61: every hash function on "hello".\n')
    for n,(v,l) in zip(names,hs):
        if not sel(n): continue
        s+=f'/-- tests/cmake/hash_tests.cmake:{l}. -/\ntheorem {n}_string1 : hashMain {n}Impl {garb(n)} {size[n]} (str "{D}") =\n    .ok (str "{v}") := by\n  decide +kernel\n\n'
    return s+'end Pgfe.Tests\n'
open(O+'Sha.lean','w').write(block(lambda n:not n.startswith('sha3_'),'MD5, SHA-1, SHA-2'))
open(O+'Sha3.lean','w').write(block(lambda n:n.startswith('sha3_'),'SHA-3'))
# --- shake
sh=vals('shake_tests.cmake','SHAKE_results')
texts=['hello','how are you?']
s='import Verif.Tests.Common\n'+HEAD%('SHAKE and RawSHAKE','tests/cmake/shake_tests.cmake:32-60, first text, output length 256 bits and 512 bits (the longest used there).\n')
k=0
for sz,bits in ((128,256),(256,512)):
    for alg in ('shake','rawshake'):
        for t,tx in enumerate(texts,1):
            v,l=sh[k]; k+=1
            if t>1: continue  # the kernel needs about 15 s for each
            s+=f'/-- tests/cmake/shake_tests.cmake:{l}. -/\ntheorem {alg}{sz}_string{t} : hashMain ({alg}{sz}Impl {bits}) garbageK {bits//8} (str "{tx}") =\n    .ok (str "{v}") := by\n  decide +kernel\n\n'
open(O+'Shake.lean','w').write(s+'end Pgfe.Tests\n')
# --- hmac
hk=[x for x,_ in vals('hmac_tests.cmake','HMAC_keys')]; hd=[x for x,_ in vals('hmac_tests.cmake','HMAC_data')]
hr=vals('hmac_tests.cmake','HMAC_results')
s='import Verif.Tests.Common\n'+HEAD%('HMAC','tests/cmake/hmac_tests.cmake:25-46.\n')
k=0
for n in names[:6]:
    bs=128 if n in('sha384','sha512') else 64
    g=garb(n)
    s+=f'/-- Memory full of rubbish. -/\ndef {n}Locals : HmacCtx.Mem (Alg.impl .{n.upper()} 0) :=\n  ⟨⟨{g}, List.replicate {bs} 0x55#8, List.replicate {bs} 0x66#8⟩, List.replicate {size[n]+1} 0x88#8, {g}⟩\n\n'
    for t in (0,1):
        v,l=hr[k]; k+=1
        s+=f'/-- tests/cmake/hmac_tests.cmake:{l}. -/\ntheorem hmac_{n}_{t+1} : hmacMain .{n.upper()} {n}Locals (str "{hk[t]}") (str "{hd[t]}") =\n    .ok (str "{v}") := by\n  decide +kernel\n\n'
open(O+'Hmac.lean','w').write(s+'end Pgfe.Tests\n')
# --- otp, base, utils
s='import Verif.Tests.Hmac\nimport Verif.Model.Otp\nimport Verif.Model.Base\n'+HEAD%('HOTP, base encodings, hexadecimal text','tests/cmake/otp_tests.cmake, base_tests.cmake, util_tests.cmake.\n')
s+='''/-- `main` of tests/c/otptest.h:14-44 (`counter` already parsed); the printed number. -/
def hotpMain (a : Alg) (g : HmacCtx.Mem (a.impl 0)) (keyLen : Nat) (hex : List Byte) (counter : W64) : C Nat := do
  let (_, key) ← hexStringToHash (hex ++ [0#8]) (List.replicate 100 0x31#8)
  hotpGeneric a g (List.replicate 8 0x41#8) (List.replicate a.digestSize 0x51#8) key keyLen counter 8

'''
oi=vals('otp_tests.cmake','HOTP_inputs'); oc=[x for x,_ in vals('otp_tests.cmake','HOTP_counters')]; orr=vals('otp_tests.cmake','HOTP_results')
for n,kl,(i,_),cc,(v,l) in zip(['sha1','sha256','sha512'],[20,32,64],oi,oc,orr):
    s+=f'/-- tests/cmake/otp_tests.cmake:{l}. -/\ntheorem hotp_{n} : hotpMain .{n.upper()} {n}Locals {kl} (str "{i}") {int(cc,0)}#64 =\n    .ok {v} := by\n  decide +kernel\n\n'
s+='''/-- What `puts` prints of a buffer: the characters before the first NUL. -/
def puts (buf : List Byte) : List Byte := buf.takeWhile (· != 0#8)

/-- `main` of tests/c/baseencodetest.h:16-21 and so on.  The encoders overrun their scratch arrays (C11): the tests pass
only because there is memory behind them, one readable and two writable bytes. -/
def baseEncodeMain (a : BaseAlg) (arg : List Byte) : C (List Byte) := do
  let (_, out) ← pgfeEncode a ⟨[0x21#8], [0x22#8, 0x23#8]⟩ (List.replicate 99 0x2A#8) (arg ++ [0#8]) arg.length (List.replicate 700 0x2B#8)
  .ok (puts out)
/-- `main` of tests/c/baseencodetest.h:23-28 and so on. -/
def baseDecodeMain (a : BaseAlg) (arg : List Byte) : C (List Byte) := do
  let (_, out) ← pgfeDecode a (arg ++ [0#8]) (List.replicate 700 0x2B#8)
  .ok (puts out)

'''
bc=vals('base_tests.cmake','Base_cipher'); k=0
for a in ('base16','base32','base32hex','base64'):
    A=a
    for t,tx in enumerate(texts,1):
        v,l=bc[k]; k+=1
        s+=f'/-- tests/cmake/base_tests.cmake:{l}. -/\ntheorem {a}_encode{t} : baseEncodeMain .{A} (str "{tx}") = .ok (str "{v}") := by decide +kernel\n'
        s+=f'/-- tests/cmake/base_tests.cmake:{l}. -/\ntheorem {a}_decode{t} : baseDecodeMain .{A} (str "{v}") = .ok (str "{tx}") := by decide +kernel\n\n'
s+='''/-- `main` of tests/c/utilstest.h:13-20. -/
def string2hashMain (arg : List Byte) : C (List Byte) := do
  let (_, h) ← hexStringToHash (arg ++ [0#8]) (List.replicate 128 0xEE#8)
  printHash h (arg.length / 2 + arg.length % 2)
/-- `main` of tests/c/utilstest.h:22-27. -/
def cleanMain (arg : List Byte) : C (List Byte) := do
  let (_, out) ← hashStringClean (arg ++ [0#8]) (List.replicate 128 0xEE#8)
  .ok (puts out)
/-- `main` of tests/c/utilstest.h:29-35. -/
def cleanInPlaceMain (arg : List Byte) : C (List Byte) := do
  let (_, out) ← hashStringCleanInPlace (splice (List.replicate 128 0xEE#8) 0 (arg ++ [0#8]))
  .ok (puts out)

'''
S='aaf4c61ddcc5e8a2dabede0f3b482cd9aea9434'
for nm,arg,exp,l in [('normal',S+'d',S+'d',8),('odd_length',S,'0'+S,12),('with_prefix','0x'+S+'d',S+'dee',16),
    ('prefix_odd','0X'+S,'0'+S+'ee',20),('with_suffix',S+'dH',S+'dee',24),('suffix_odd',S+'h','0'+S,28),('both_odd','0X'+S+'h','0'+S+'ee',32)]:
    s+=f'/-- tests/cmake/util_tests.cmake:{l}; the expected digits, then perhaps rubbish from beyond the parsed bytes. -/\ntheorem string_to_hash_{nm} : string2hashMain (str "{arg}") =\n    .ok (str "{exp}") := by\n  decide +kernel\n\n'
N='0Xaaf4c61ddc+`ZZHHgc5[e8a2dab;:edeKKKKKK0f3b48??//2cdw9aea9434h'
for nm,f in (('hash_string_clean','cleanMain'),('hash_string_clean_inplace','cleanInPlaceMain')):
    s+=f'/-- tests/cmake/util_tests.cmake:6, 34-43. -/\ntheorem {nm} : {f} (str "{N}") =\n    .ok (str "{S}") := by\n  decide +kernel\n\n'
open(O+'Misc.lean','w').write(s+'end Pgfe.Tests\n')
