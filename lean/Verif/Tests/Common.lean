import Verif.Model.Hmac
/-!
# The test programs


Generated by tools/gen_tests.py from the expectations in /repo/tests.  These are *tests of the model*, evaluated by
the kernel; they are not claims of their own.  They show that the model computes what the project expects of the
program.
-/
namespace Pgfe.Tests
open Pgfe.Model

set_option maxRecDepth 100000

/-- tests/c/mdtest.h:14-19, tests/c/shatest.h:15-20 and so on: `main` hashes its argument and prints the digest; `g`
is the content of the uninitialised context. -/
def hashMain (I : HashImpl) (g : I.Ctx) (n : Nat) (arg : List Byte) : C (List Byte) := do
  let out ← I.encodeDefault g (arg ++ [0#8]) (List.replicate n 0xA5#8)
  printHash out n

/-- Memory full of rubbish. -/
def garbageMd5 : Md5Ctx := ⟨List.replicate 4 0x5A5A5A5A#32, 77#64, List.replicate 64 0xC3#8⟩
/-- Memory full of rubbish. -/
def garbage32 (k : Nat) : ShaCtx 32 :=
  ⟨List.replicate k 0x5A5A5A5A#32, 7#32, 9#32, 12, List.replicate 64 0xC3#8⟩
/-- Memory full of rubbish. -/
def garbage64 : ShaCtx 64 :=
  ⟨List.replicate 8 0x5A5A5A5A5A5A5A5A#64, 7#64, 9#64, 12, List.replicate 128 0xC3#8⟩
/-- Memory full of rubbish. -/
def garbageK : KeccakCtx :=
  ⟨List.replicate 25 0x5A5A5A5A5A5A5A5A#64, List.replicate 192 0xC3#8, 1, 2, 3, 4, 5, true, 6, 7#8, 8, true⟩

/-- `main` of tests/c/hmactest.h:71-88: a key that starts with "0x" is parsed as hexadecimal. -/
def hmacMain (a : Alg) (g : HmacCtx.Mem (a.impl 0)) (rawKey data : List Byte) : C (List Byte) := do
  let buf := List.replicate 256 0x77#8
  let (key, keyLen) ← if rawKey.take 2 = str "0x" then do
      let (_, key) ← hexStringToHash (rawKey ++ [0#8]) buf
      let n ← hashLength buf (rawKey ++ [0#8])
      .ok (key, n)
    else .ok (splice buf 0 rawKey, rawKey.length)
  let out ← pgfeHmac a g key keyLen (data ++ [0#8]) data.length (List.replicate a.digestSize 0x99#8)
  printHash out a.digestSize

end Pgfe.Tests
