import Verif.Model.Hash
import Verif.Model.Sha
/-!
# The SHA-1 and SHA-2 functions as `HashImpl`
-/
namespace Pgfe.Model

/-- `pgfe_sha1_*`, include/libpgfe/hashes/sha1.h:40-44. -/
abbrev sha1Impl : HashImpl := ⟨ShaCtx 32, sha1Init, sha1Update, sha1Digest⟩
/-- `pgfe_sha224_*`, include/libpgfe/hashes/sha2.h:71-75. -/
abbrev sha224Impl : HashImpl := ⟨ShaCtx 32, sha224Init, sha224Update, sha224Digest⟩
/-- `pgfe_sha256_*`, include/libpgfe/hashes/sha2.h:88-92. -/
abbrev sha256Impl : HashImpl := ⟨ShaCtx 32, sha256Init, sha256Update, sha256Digest⟩
/-- `pgfe_sha384_*`, include/libpgfe/hashes/sha2.h:105-109. -/
abbrev sha384Impl : HashImpl := ⟨ShaCtx 64, sha384Init, sha512Update, sha384Digest⟩
/-- `pgfe_sha512_*`, include/libpgfe/hashes/sha2.h:122-126. -/
abbrev sha512Impl : HashImpl := ⟨ShaCtx 64, sha512Init, sha512Update, sha512Digest⟩
/-- `pgfe_sha512_224_*`, include/libpgfe/hashes/sha2.h:140-144. -/
abbrev sha512_224Impl : HashImpl := ⟨ShaCtx 64, sha512_224Init, sha512Update, sha512_224Digest⟩
/-- `pgfe_sha512_256_*`, include/libpgfe/hashes/sha2.h:158-162. -/
abbrev sha512_256Impl : HashImpl := ⟨ShaCtx 64, sha512_256Init, sha512Update, sha512_256Digest⟩

end Pgfe.Model
