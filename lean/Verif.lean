import Verif.Props.C01_OutputBuffer
import Verif.Props.C02_C03_C68_BlockTransform
import Verif.Props.C04_C05_C06_Padding
import Verif.Props.C07_C11_Modes
import Verif.Props.C100_KeyClasses
import Verif.Props.C101_Cmac
import Verif.Props.C101_MacLength
import Verif.Props.C102_Correspond
import Verif.Props.C103_Rejection
import Verif.Props.C104_OneShot
import Verif.Props.C105_Tower
import Verif.Props.C106_SharedSeed
import Verif.Props.C107_SecretUse
import Verif.Props.C108_Reuse
import Verif.Props.C109_Tally
import Verif.Props.C110_ChanFault
import Verif.Props.C112_Pipeline
import Verif.Props.C113_Extension
import Verif.Props.C114_Sponge
import Verif.Props.C115_Interrupt
import Verif.Props.C115_InterruptAead
import Verif.Props.C115_InterruptAuth
import Verif.Props.C115_InterruptCodec
import Verif.Props.C115_InterruptCompose
import Verif.Props.C115_InterruptMac
import Verif.Props.C115_InterruptZlib
import Verif.Props.C116_GcmReuse
import Verif.Props.C116_InterruptCtr
import Verif.Props.C116_InterruptGcm
import Verif.Props.C117_InterruptRng
import Verif.Props.C117_RngRepeats
import Verif.Props.C118_InterruptHash
import Verif.Props.C118_InterruptHashWithin
import Verif.Props.C12_C13_Bounds
import Verif.Props.C14_Entries
import Verif.Props.C15_C17_Mac
import Verif.Props.C18_C21_Stream
import Verif.Props.C22_C24_SHA
import Verif.Props.C25_HashSize
import Verif.Props.C26_Ripemd
import Verif.Props.C27_SHA3
import Verif.Props.C28_Blake2
import Verif.Props.C29_Blake3
import Verif.Props.C30_SipHash
import Verif.Props.C31_Hmac
import Verif.Props.C32_Poly1305
import Verif.Props.C33_Ghash
import Verif.Props.C34_Gcm
import Verif.Props.C35_ChaPoly
import Verif.Props.C37_AuthCheck
import Verif.Props.C39_C40_Utilities
import Verif.Props.C41_C42_Aes
import Verif.Props.C43_Des
import Verif.Props.C44_Blowfish
import Verif.Props.C45_C48_Codec
import Verif.Props.C49_C52_Combinators
import Verif.Props.C53_C54_RSA
import Verif.Props.C55_C56_Paillier
import Verif.Props.C57_C58_DH
import Verif.Props.C59_C60_Bignum
import Verif.Props.C61_C62_Random
import Verif.Props.C63_C65_Safety
import Verif.Props.C63_Erase
import Verif.Props.C64_Zlib
import Verif.Props.C64_ZlibStreaming
import Verif.Props.C65_Zlib
import Verif.Props.C66_Gc
import Verif.Props.C67_Cipher
import Verif.Props.C69_Md5
import Verif.Props.C70_Dispatch
import Verif.Props.C71_Lifetime
import Verif.Props.C72_Sizes
import Verif.Props.C73_ByteOrder
import Verif.Props.C74_SharedKey
import Verif.Props.C75_Forgery
import Verif.Props.C76_Streaming
import Verif.Props.C77_Erasure
import Verif.Props.C78_Uniform
import Verif.Props.C79_Collision
import Verif.Props.C80_C81_SharedBuffer
import Verif.Props.C82_MachineInt
import Verif.Props.C82_Zlib
import Verif.Props.C83_C84_KeyGen
import Verif.Props.C85_DeriveKey
import Verif.Props.C86_Inert
import Verif.Props.C86_InertAuth
import Verif.Props.C86_InertCompose
import Verif.Props.C86_InertMac
import Verif.Props.C86_InertMore
import Verif.Props.C86_InertZlib
import Verif.Props.C87_C88_BufferCost
import Verif.Props.C89_Nonces
import Verif.Props.C90_DesKeys
import Verif.Props.C91_ErrorPropagation
import Verif.Props.C92_Collision
import Verif.Props.C93_Seeds
import Verif.Props.C94_DHPeer
import Verif.Props.C95_TooLong
import Verif.Props.C96_Draws
import Verif.Props.C97_Uninit
import Verif.Props.C97_UninitAuth
import Verif.Props.C97_UninitBlake3
import Verif.Props.C97_UninitCodec
import Verif.Props.C97_UninitHash
import Verif.Props.C97_UninitHmac
import Verif.Props.C97_UninitMac
import Verif.Props.C97_UninitStream
import Verif.Props.C97_UninitZlib
import Verif.Props.C98_SystemRng
import Verif.Props.C99_Interop
