import Verif.Spec.Blowfish
/-!
# Blowfish with input and output in one array: one block after the other
-/
namespace Pgfe.Spec.Blowfish

/-- Block number i: read (and filled up with zero bytes) from where the input is in the array as it is now, enciphered,
and written to where the output is. -/
def moveBlock (g : W32 × W32 → W32 × W32) (ip n op : Nat) (mem : List Byte) (i : Nat) : List Byte :=
  splice mem (op + 8 * i) (onBlock g (pad ((mem.drop (ip + 8 * i)).take (min 8 (n - 8 * i)))))

/-- The first m blocks in this way. -/
def moveBlocks (g : W32 × W32 → W32 × W32) (ip n op : Nat) (mem : List Byte) (m : Nat) : List Byte :=
  (List.range m).foldl (moveBlock g ip n op) mem

end Pgfe.Spec.Blowfish
