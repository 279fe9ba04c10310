import Verif.Tls.AntiReplay.Props
import Verif.Bsl.Base64.Props
import Verif.Bsl.Pem.Props
import Verif.Bsl.Oid.Props
import Verif.Bsl.Bytes.Props
import Verif.Tls.Aead.Props
import Verif.Tls.Inner.Props
import Verif.Tls.KeyBlock.Props
import Verif.Tls.Cbc.Props
import Verif.Tls.RecWrite.Props
import Verif.Tls.Reass.Props
import Verif.Bsl.Asn1.LenProps
import Verif.Bsl.Asn1.IntProps
import Verif.Bsl.Asn1.Utf8Props
import Verif.Bsl.Tlv.Props
import Verif.Bsl.Time.Props
import Verif.Bsl.Asn1.TimeProps
import Verif.Bsl.Asn1.PrimProps
import Verif.Bsl.List.Props
import Verif.Bsl.Hash.Props
import Verif.Bsl.Avl.Props
import Verif.Bsl.Err.Props
import Verif.Bsl.UioMem.Props
import Verif.Bsl.Ip.Props
import Verif.Crypto.Drbg.Props
import Verif.Crypto.Health.Props
import Verif.Crypto.Bn.Props
import Verif.Crypto.Bn.ApiProps
import Verif.Crypto.Bn.MontProps
import Verif.Crypto.Bn.NistProps
import Verif.Crypto.Bn.CombaProps
import Verif.Crypto.Bn.GcdProps
import Verif.Crypto.Modes.StreamProps
import Verif.Crypto.Modes.BlockProps
import Verif.Crypto.Modes.XtsProps
import Verif.Crypto.Gcm.Props
import Verif.Crypto.Md.Props
import Verif.Crypto.Mac.Props
import Verif.Crypto.Kdf.Props
import Verif.Crypto.Chacha.Props
import Verif.Crypto.RsaPad.Props
import Verif.Bsl.Ip.Props
import Verif.Pki.Host.Props
import Verif.Crypto.Wrap.Props
import Verif.Crypto.Sm4.Props
import Verif.Tls.Version.Props
import Verif.Crypto.Aes.Props
import Verif.Tls.Order.Props
import Verif.Pki.Path.Props
import Verif.Crypto.Xmss.Props
import Verif.Crypto.Hbs.Props
import Verif.Crypto.Mlkem.Props
import Verif.Crypto.Mldsa.Props
import Verif.Crypto.Mldsa.SignProps
import Verif.Tls.Session.Props
import Verif.Tls.RecRead.Props
import Verif.Crypto.Ecc.Props
import Verif.Crypto.Sig.Props
import Verif.Crypto.Bn.ConvProps
import Verif.Crypto.Bn.ExpMulProps
import Verif.Crypto.Dsa.Props
import Verif.Crypto.Rsa.KeyProps
import Verif.Crypto.Rsa.Props
import Verif.Crypto.SigDer.Props
import Verif.Crypto.Dh.Props
import Verif.Crypto.Rsa.BssaProps
import Verif.Crypto.Paillier.Props
import Verif.Crypto.Elgamal.Props
import Verif.Crypto.Cmac.Props
import Verif.Crypto.Siphash.Props
import Verif.Crypto.Scrypt.PbkdfProps
import Verif.Auth.Otp.Props
