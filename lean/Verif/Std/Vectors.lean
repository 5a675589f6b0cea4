import Verif.Std.Instance
import Verif.Model.Kmac
import Verif.Model.Crypto
/-!
# Known answers

The known-answer tests of the repository, replayed on the model with the standard algorithms.  The kernel computes them.
They are tests: they say that the model of `crypto/kwp.go`, `crypto/kmac.go`, `crypto/kdf.go` and `crypto/aes.go`, and the
algorithms of `Verif/Std`, agree with the published answers that the Go code is tested against.
-/
namespace D1.Std
open D1

/-- FIPS 197, appendix C.3. -/
example : aesEnc (beBytes 32 0x000102030405060708090a0b0c0d0e0f101112131415161718191a1b1c1d1e1f)
    (beBytes 16 0x00112233445566778899aabbccddeeff) = beBytes 16 0x8ea2b7ca516745bfeafc49904b496089 := by decide +kernel

/-- crypto/kwp_test.go, vector 1: a 16-byte wrapping key. -/
example : (kwpWrap stdPrims (beBytes 16 0x6f67486d1e914419cb43c28509c7c1ea)
    (beBytes 16 0x8dc0632d92ee0be4f740028410b08270)).toOption
      = some (beBytes 24 0x8cd63fa6788aa5edfa753fc87d645a672b14107c3b4519e7) := by decide +kernel

/-- crypto/kwp_test.go, vector 76: a 32-byte wrapping key, both directions. -/
example : (kwpWrap stdPrims (beBytes 32 0xfce0429c610658ef8e7cfb0154c51de2239a8a317f5af5b6714f985fb5c4d75c)
    (beBytes 16 0x287326b5ed0078e7ca0164d748f667e7)).toOption
      = some (beBytes 24 0xe3eab96d9a2fda12f9e252053aff15e753e5ea6f5172c92b) := by decide +kernel
example : (kwpUnwrap stdPrims (beBytes 32 0xfce0429c610658ef8e7cfb0154c51de2239a8a317f5af5b6714f985fb5c4d75c)
    (beBytes 24 0xe3eab96d9a2fda12f9e252053aff15e753e5ea6f5172c92b)).toOption
      = some (beBytes 16 0x287326b5ed0078e7ca0164d748f667e7) := by decide +kernel

/-- crypto/kwp_test.go, vector 169: wrapping a 32-byte key, as `Cryptor.Encrypt` does. -/
example : (kwpWrap stdPrims (beBytes 32 0xaa0ab9d68ed4a04e723f81b44c0c88d0bcde7a80cfd476eb4b8836d9aa01ec4c)
    (beBytes 32 0x57faa8766f6d6a0aa1cf643f857c150df5b31303b50af480e21c4b5e8c8a15d5)).toOption
      = some (beBytes 40 0x0e9e2e9aa34bbf973d67bc534ac86fc5b5a5f9da5f026866177894ec6077a5c84501510e1bf4afb3) := by
  decide +kernel

/-- "My Tagged Application". -/
def taggedApp : Bytes := beBytes 21 0x4d7920546167676564204170706c69636174696f6e
/-- The key of the KMAC samples. -/
def kmacKey : Bytes := beBytes 32 0x404142434445464748494A4B4C4D4E4F505152535455565758595A5B5C5D5E5F
/-- The message of 200 bytes of the KMAC samples. -/
def kmacLong : Bytes := (List.range 200).map UInt8.ofNat

/-- crypto/kmac_test.go, samples 1, 3 and 6: KMAC128 and KMAC256, written in one or two pieces. -/
example : (newKMAC128 kmacKey 32 []).map (fun k => (k.write [0, 1, 2, 3]).sum stdPrims [])
    = some (beBytes 32 0xE5780B0D3EA6F7D3A429C5706AA43A00FADBD7D49628839E3187243F456EE14E) := by decide +kernel
example : (newKMAC128 kmacKey 32 taggedApp).map (fun k => ((k.write (kmacLong.take 1)).write (kmacLong.drop 1)).sum stdPrims [])
    = some (beBytes 32 0x1F5B4E6CCA02209E0DCB5CA635B89A15E271ECC760071DFD805FAA38F9729230) := by decide +kernel
example : (newKMAC256 kmacKey 64 taggedApp).map (fun k => (k.write kmacLong).sum stdPrims [])
    = some (beBytes 64 0xB58618F71F92E1D56C1B8C55DDD7CD188B97B4CA4D99831EB2699A837DA2E4D970FBACFDE50033AEA585F1A2708510C32D07880801BD182898FE476876FC8965) := by
  decide +kernel

/-- crypto/kdf_test.go, first vector. -/
example : kmacKdf stdPrims 64 kmacKey taggedApp [[0, 1, 2, 3]]
    = some (beBytes 64 0x20C570C31346F703C9AC36C61C03CB64C3970D0CFC787E9B79599D273A68D2F7F69D4CC3DE9D104A351689F27CF6F5951F0103F33F4F24871024D9C27773A8DD) := by
  decide +kernel

/-- The vector of crypto/aes_test.go: key, nonce, associated data, plaintext and ciphertext with tag and nonce. -/
def gcmKey : Bytes := beBytes 32 0xfeffe9928665731c6d6a8f9467308308feffe9928665731c6d6a8f9467308308
def gcmNonce : Bytes := beBytes 12 0xcafebabefacedbaddecaf888
def gcmAad : Bytes := beBytes 20 0xfeedfacedeadbeeffeedfacedeadbeefabaddad2
def gcmPlain : Bytes := beBytes 60 0xd9313225f88406e5a55909c5aff5269a86a7a9531534f7da2e4c303d8a318a721c3c0c95956809532fcf0e2449a6b525b16aedf5aa0de657ba637b39
def gcmCipher : Bytes := beBytes 88 0x522dc1f099567d07f47f37a32a84427d643a8cdcbfe5c0c97598a2bd2555d1aa8cb08e48590dbb3da7b08b1056828838c5f61e6393ba7a0abcc9f66276fc6ece0f4e1768cddf8853bb2d551bcafebabefacedbaddecaf888

/-- crypto/aes_test.go:31-49: `Encrypt` with the fixed nonce, then `Decrypt`. -/
example : (match gcmEncrypt stdPrims gcmPlain gcmAad gcmKey with
    | .op (.rand 12) k => match k (some ⟨gcmNonce, rfl⟩ : Option (BytesN 12)) with
      | .ret c => decide (c = gcmCipher)
      | _ => false
    | _ => false) = true := by decide +kernel
example : (gcmDecrypt stdPrims gcmCipher gcmAad gcmKey).toOption = some gcmPlain := by decide +kernel

/-- SHA3-256 of "abc" (FIPS 202 examples). -/
example : sha3_256 [97, 98, 99] = beBytes 32 0x3a985da74fe225b2045c172d6bd390bd855f086e3e9d525b46bfe24511431532 := by
  decide +kernel

/-- Times as Go writes them. -/
example : timeText ⟨1794812400123456000, 0⟩ = (beBytes 27 0x323032362d31312d31365430373a30303a30302e3132333435365a) := by decide +kernel
example : timeText ⟨951782399000000001, -570⟩ = (beBytes 35 0x323030302d30322d32385431343a32393a35392e3030303030303030312d30393a3330) := by
  decide +kernel

end D1.Std
