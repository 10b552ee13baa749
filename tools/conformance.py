#!/usr/bin/env python3
"""Runs the model on the test vectors of /repo/test/test.ml.

This is a test of the model's fidelity to the code, not a proof: it writes a Lean file of `#eval`
commands in a scratch place and runs it against the compiled modules of /verif/lean.  Each line of
output is `ok NAME` or `FAIL NAME`.

usage: conformance.py [scratch.lean]
"""
import re, subprocess, sys

T = open('/repo/test/test.ml').read()
L = T.split('\n')
out = []


def sec(start, end=None):
    """The text of test.ml from the line holding `start` up to the next blank comment header."""
    i = T.index('testing_function "%s"' % start)
    j = T.index('testing_function "', i + 20) if end is None else T.index(end, i)
    return T[i:j]


def unesc(s):
    """Contents of an OCaml string literal, as bytes."""
    b = bytearray()
    i = 0
    while i < len(s):
        c = s[i]
        if c == '\\':
            n = s[i + 1]
            if n == 'x':
                b.append(int(s[i + 2:i + 4], 16)); i += 4; continue
            if n.isdigit():
                b.append(int(s[i + 1:i + 4])); i += 4; continue
            if n == '\n':
                i += 2
                while s[i] in ' \t': i += 1
                continue
            b.append(ord({'n': '\n', 't': '\t', '\\': '\\', '"': '"', 'r': '\r'}[n])); i += 2; continue
        b += c.encode('latin-1'); i += 1
    return bytes(b)


def hx(s):
    return bytes.fromhex(re.sub(rb'\s', b'', unesc(s)).decode())


STR = r'"((?:[^"\\]|\\.|\\\n)*)"'


def by(b):
    """A byte string as a Lean term."""
    return '(hx "%s")' % b.hex()


def check(name, term, expected):
    out.append('#eval chk "%s" (%s) %s' % (name, term, by(expected)))


def strings(t):
    return [m.group(1) for m in re.finditer(STR, t)]


# block ciphers -------------------------------------------------------------------------------
def block(name, ctor, key, plain, cipher):
    check(name + ' enc', 'blk (%s .encrypt %s) %s' % (ctor, by(key), by(plain)), cipher)
    check(name + ' dec', 'blk (%s .decrypt %s) %s' % (ctor, by(key), by(cipher)), plain)


ss = [s for s in strings(sec('AES', 'testing_function "Blowfish"'))][1:]
for i in range(0, len(ss), 3):
    k, p, c = map(hx, ss[i:i + 3])
    block('AES %d' % i, 'aesBlock (.table (List.replicate 60 7))', k, p, c)
    block('AES-NI %d' % i, 'aesBlock (.aesni (List.replicate 241 7) (List.replicate 40 9))', k, p, c)
ss = strings(sec('Blowfish', '(* DES *)'))[1:]
for i in range(0, len(ss), 3):
    block('Blowfish %d' % i, 'blowfishBlock', *map(hx, ss[i:i + 3]))
block('DES', 'desBlock', hx("0123456789abcdef"), hx("0123456789abcde7"), hx("c95744256a5ed31d"))
out.append('#eval chk "DES 3" (desIter 64 (hx "5555555555555555") (hx "ffffffffffffffff")) (hx "246e9db9c550381a")')
ss = strings(sec('Triple DES'))[1:]
for i in range(0, len(ss), 3):
    block('3DES %d' % i, 'tripleDesBlock', *map(hx, ss[i:i + 3]))

# stream ciphers ------------------------------------------------------------------------------
for i, m in enumerate(re.finditer(r'do_test \d+ \d+ ' + ' '.join([STR] * 3), sec('ARCfour'))):
    k, p, c = map(hx, m.groups())
    check('ARCfour %d' % i, 'strm (arcfour env %s .encrypt) %s' % (by(k), by(p)), c)
    check('ARCfour dec %d' % i, 'strm (arcfour env %s .decrypt) %s' % (by(k), by(c)), p)
ss = re.findall(r'do_test \d+ \d+\s+' + r'\s+'.join([STR] * 4) + r'\s+(\d+)L', sec('Chacha20'))
for i, (k, n, p, c, ctr) in enumerate(ss):
    k, n, p, c = map(hx, (k, n, p, c))
    check('ChaCha20 %d' % i, 'strm (chacha20 env (some %s) (some %s) %s .encrypt) %s'
          % (by(n), ctr, by(k), by(p)), c)

# AEAD ----------------------------------------------------------------------------------------
t = sec('AES-GCM')
for i, g in enumerate(re.findall(r'\(' + r',\s*'.join([STR] * 6) + r'\)', t)):
    k, p, h, iv, c, tag = map(hx, g)
    for host in ('.table (List.replicate 60 7)', '.aesni (List.replicate 241 7) (List.replicate 40 9)'):
        for pc in ('true', 'false'):
            nm = 'GCM %d %s %s' % (i, host[1:6], pc)
            o = 'AEAD.aesGcm env (%s) %s (some %s) %s %s' % (host, pc, by(h), by(iv), by(k))
            check(nm, 'gcmE (%s .encrypt) %s' % (o, by(p)), c + tag)
            check(nm + ' dec', 'gcmD (%s .decrypt) %s' % (o, by(c + tag)), p)
t = re.sub(r'\(\*.*?\*\)', '', sec('Chacha20-Poly1305'))
for i, g in enumerate(re.findall(r'\(' + STR + r',\s*' + STR + r',\s*' + STR + r',\s*(hex )?' + STR
                                 + r',\s*' + STR + r',\s*' + STR + r'\)', t)):
    k, iv, p, ish, h, c, tag = g
    k, iv, c, tag = map(hx, (k, iv, c, tag))
    p = unesc(p)
    h = hx(h) if ish else unesc(h)
    check('ChaPoly %d' % i, 'cpE %s %s %s %s' % (by(h), by(iv), by(k), by(p)), c + tag)
    check('ChaPoly dec %d' % i, 'cpD %s %s %s %s' % (by(h), by(iv), by(k), by(c + tag)), p)

# hashes --------------------------------------------------------------------------------------
LONG = '--long' in sys.argv


def hashes(name, term, hexre=r'\(hex ' + STR + r'\)'):
    t = sec(name)
    for i, (m, r) in enumerate(re.findall(r'\(hash ' + STR + r'\)\s*' + hexre, t)):
        check('%s %d' % (name, i), '%s %s' % (term, by(unesc(m))), hx(r))


hashes('SHA-1', 'hsh sha1 (sha1Init (List.replicate 64 7))')
for sz, bs in ((224, 64), (256, 64), (384, 128), (512, 128)):
    hashes('SHA-2 %d' % sz, 'any (sha2New %d (List.replicate %d 7))' % (sz, bs))
# The variables of the model of RIPEMD-160 are a function, which is slow to run: the vectors are
# given to its specification, which C26 proves it to compute.
hashes('RIPEMD-160', 'some <| Spec.RIPEMD160')
for nm, off in (('SHA-3', 'true'), ('Keccak', 'false')):
    s = None
    n = 0
    for m in re.finditer(r'let s = ' + STR + r'|\(hash (\d+) s\)\s*\(hex ' + STR + r'\)', sec(nm)):
        if m.group(2) is None:
            s = unesc(m.group(1))
        else:
            n += 1
            check('%s %d' % (nm, n), 'new (sha3Class %s %s) (sha3New %s (List.replicate %d 7)) %s'
                  % (m.group(2), off, m.group(2), 200 - int(m.group(2)) // 4, by(s)), hx(m.group(3)))
hashes('BLAKE2b-512', 'newO (blake2Class blake2bCode 512) (blake2bNew 512 [] (List.replicate 128 7))')
seq = lambda n: bytes(i % 256 for i in range(n))
for nm, code, sz, kl, bs in (('BLAKE2b-512 (keyed)', 'b', 512, 64, 128), ('BLAKE2s-256 (keyed)', 's', 256, 32, 64)):
    for n, r in re.findall(r'\n(\d+), ' + STR, sec(nm)):
        check('%s %s' % (nm, n), 'newO (blake2Class blake2%sCode %d) (blake2%sNew %d %s (List.replicate %d 7)) %s'
              % (code, sz, code, sz, by(seq(kl)), bs, by(seq(int(n)))), hx(r))
for n, h, kh in re.findall(r'\((\d+),\s*' + STR + r',\s*' + STR + r'\)', sec('BLAKE3')):
    n = int(n)
    if n > 9000 and not LONG: continue
    h, kh = hx(h), hx(kh)
    for simd in (1, 4, 16):
        for key, r in ((b'', h), (b'whats the Elvish word for friend', kh)):
            out.append('#eval chk "BLAKE3 %d %d %d" (new (b3Class ⟨%d, 9⟩ %d) (b3New %s %d (List.replicate 1760 7)) (seq251 %d)) %s'
                       % (n, len(key), simd, simd, 8 * len(r), by(key), 8 * len(r), n, by(r)))

# MACs ----------------------------------------------------------------------------------------
check('GFmul', 'opt ((cGhashInit false %s).bind fun g => cGhashMult g %s)' % (by(hx("dfa6bf4ded81db03ffcaff95f830f061")), by(hx("952b2a56a5604ac0b32b6656a05b40b6"))), hx("da53eb0ad2c55bb64fc4802cc3feda60"))
check('GFmul pclmul', 'opt ((cGhashInit true %s).bind fun g => cGhashMult g %s)' % (by(hx("dfa6bf4ded81db03ffcaff95f830f061")), by(hx("952b2a56a5604ac0b32b6656a05b40b6"))), hx("da53eb0ad2c55bb64fc4802cc3feda60"))
pk, pm = bytes((i + 221) % 256 for i in range(32)), bytes((i + 121) % 256 for i in range(73))
check('Poly1305', 'opt ((poly64Update (poly64Init %s (List.replicate 16 7)) %s).bind fun c => (poly64Final c).map (·.1))' % (by(pk), by(pm)), hx("dd b9 da 7d dd 5e 52 79 27 30 ed 5c da 5f 90 a4"))
check('Poly1305 32', 'opt ((poly32Update (poly32Init %s (List.replicate 16 7)) %s).bind fun c => (poly32Final c).map (·.1))' % (by(pk), by(pm)), hx("dd b9 da 7d dd 5e 52 79 27 30 ed 5c da 5f 90 a4"))
for sz, nm in ((64, 'SipHash 64'), (128, 'SipHash 128')):
    for i, r in enumerate(strings(sec(nm, 'open Cipher') if sz == 128 else sec(nm))[1:]):
        check('%s %d' % (nm, i), 'new (sipClass %d) (sipNew %d %s (List.replicate 8 7)) %s' % (sz, sz, by(seq(16)), by(seq(i))), hx(r))
for nm, obj, init, bs, ishex in (('HMAC-SHA256', 'sha256', 'sha256Init', 64, False), ('HMAC-SHA384', 'sha384', 'sha384Init', 128, True), ('HMAC-SHA512', 'sha512', 'sha512Init', 128, True)):
    t = re.sub(r'\(\*.*?\*\)', '', sec(nm))
    for n, k, m, r in re.findall(r'\((\d+),\s*' + r',\s*'.join([STR] * 3) + r'\)', t):
        check('%s %s' % (nm, n), 'hm %s %d (%s (List.replicate %d 7)) %s %s' % (obj, bs, init, bs, by(hx(k)), by(hx(m) if ishex else unesc(m))), hx(r))
key = hx("2b7e1516 28aed2a6 abf71588 09cf4f3c")
msg = hx("6bc1bee2 2e409f96 e93d7e11 7393172aae2d8a57 1e03ac9c 9eb76fac 45af8e5130c81c46 a35ce411 e5fbc119 1a0a52eff69f2445 df4f9b17 ad2b417b e66c3710")
for n, r in ((0, "bb1d6929 e9593728 7fa37d12 9b756746"), (16, "070a16b4 6b4d4144 f79bdd9d d04a287c"), (40, "dfa66747 de9ae630 30ca3261 1497c827"), (64, "51f0bebf 7e3b9d92 fc497417 79363cfe")):
    check('CMAC %d' % n, 'anyO (MAC.aesCmac env (.table (List.replicate 60 7)) none %s) %s' % (by(key), by(msg[:n])), hx(r))

# modes ---------------------------------------------------------------------------------------
K = by(hx("0123456789abcdef"))
modes = {'ECB': '.ECB', 'CBC': '.CBC', 'CTR': '.CTR', '(CFB 1)': '(.CFB 1)', '(CFB 4)': '(.CFB 4)',
         '(OFB 1)': '(.OFB 1)', '(OFB 8)': '(.OFB 8)', '(CTR_N 1)': '(.CTR_N 1)'}
pads = {None: 'none', 'length': '(some Padding.length)', '_8000': '(some Padding._8000)'}
for m in re.finditer(r'test_enc_dec (\d+) \(des ~mode:(\w+|\(\w+ \d+\))((?: ~\w+:\S+)*)\) ' + STR, T):
    opts = dict(re.findall(r'~(\w+):([^\s)]+)', m.group(3)))
    pad = pads[opts.get('pad', 'Padding.').split('.')[1] or None]
    iv = '(some %s)' % by(unesc(opts['iv'].strip('"'))) if 'iv' in opts else 'none'
    s = by(unesc(m.group(4)))
    o = 'des env (some %s) %s %s %s' % (modes[m.group(2)], pad, iv, K)
    check('mode %s %s' % (m.group(2), m.group(1)), 'encdec (%s .encrypt) (%s .decrypt) %s' % (o, o, s), unesc(m.group(4)))
o = 'des env (some (.CTR_N 1)) none none %s .encrypt' % K
out.append('#eval chkB "CTR_N overflow" (tooLong (%s) (List.replicate (256*8) 120)) true' % o)
out.append('#eval chkB "CTR_N no overflow" (tooLong (%s) (List.replicate (255*8) 120)) false' % o)

# Not run: RSA, Paillier, Diffie-Hellman (the model says `a ^ x % m`, which is not executable on
# 512-bit exponents), MD5 (the engine is OCaml's, a parameter of the model), Zlib (a parameter).

# Base64 --------------------------------------------------------------------------------------
t = T[T.index('testing_function "Base64"'):T.index('let binarytext')]
for i, (r, f, m) in enumerate(re.findall(STR + r'\s*\(transform_string \(Base64\.(\w+)\(\)\)\s*' + STR + r'\)', t)):
    o = 'B64.encode env true true, B64.encInit env' if f == 'encode_multiline' else 'B64.decode env, B64.decInit env'
    check('Base64 %d' % i, 'strm (.ok ⟨%s⟩) %s' % (o, by(unesc(m))), unesc(r))
check('Base64 7', '(strm (.ok ⟨B64.encode env false true, B64.encInit env⟩) %s).bind (strm (.ok ⟨B64.decode env, B64.decInit env⟩))' % by(seq(256)), seq(256))
check('Hexa', 'strm (.ok ⟨Hex.decode env, Hex.decInit env⟩) %s' % by(b"616263 64656667 \n 68696a6b 6c6d6e6f\t70710a"), bytes(range(0x61, 0x72)) + b"\n")

HEAD = '''import Verif
open Verif Verif.Cipher
set_option maxRecDepth 20000
def env : Env := ⟨2^60, fun _ _ => 7⟩
def bn : BnEnv := ⟨8, fun n => n⟩
def hd (c : Char) : Nat := if c.isDigit then c.toNat - 48 else c.toNat - 87
def hxl : List Char → Bytes
  | a :: b :: r => BitVec.ofNat 8 (16 * hd a + hd b) :: hxl r
  | _ => []
def hx (s : String) : Bytes := hxl s.toList
def show' : Option Bytes → String
  | none => "none"
  | some b => String.join (b.map fun x => (String.ofList (Nat.toDigits 16 (256 + x.toNat)).tail))
def chk (n : String) (a : Option Bytes) (b : Bytes) : IO Unit :=
  IO.println (if a == some b then s!"ok {n}" else s!"FAIL {n} got {show' a}")
def chkB (n : String) (a b : Bool) : IO Unit :=
  IO.println (if a == b then s!"ok {n}" else s!"FAIL {n}")
def outv : Out σ α → Option α
  | .ok a _ => some a
  | _ => none
def opt (a : Option Bytes) : Option Bytes := a
def ex (a : Except Exn Bytes) : Option Bytes := a.toOption
def blk (b : Option (Except Exn AnyBlock)) (s : Bytes) : Option Bytes :=
  match b with
  | some (.ok b) =>
    match (b.c.transform (.other s) 0 0) (b.s, List.replicate b.c.blocksize 9) with
    | .ok _ (_, d) => some d
    | _ => none
  | _ => none
def desIter : Nat → Bytes → Bytes → Option Bytes
  | 0, k, _ => some k
  | n + 1, k, i => do
    let t1 ← blk (desBlock .encrypt k) i
    let t2 ← blk (desBlock .encrypt k) t1
    let t3 ← blk (desBlock .decrypt t2) t1
    desIter n t3 t1
def strm (b : Except Exn AnyTransform) (s : Bytes) : Option Bytes :=
  match b with
  | .ok b => outv (transformString b.T s b.t)
  | _ => none
def hsh (h : HashObj τ) (t : τ) (s : Bytes) : Option Bytes := outv (hashString h s t)
def new (h : HashObj τ) (t : Except Exn τ) (s : Bytes) : Option Bytes := t.toOption.bind fun t => hsh h t s
def newO (h : HashObj τ) (t : Except Exn (Option τ)) (s : Bytes) : Option Bytes := t.toOption.join.bind fun t => hsh h t s
def any (a : Except Exn AnyHash) (s : Bytes) : Option Bytes :=
  match a with
  | .ok a => hsh a.H a.t s
  | _ => none
def anyO (a : Option (Except Exn AnyHash)) (s : Bytes) : Option Bytes :=
  match a with
  | some a => any a s
  | _ => none
def hm (h : HashObj τ) (bs : Nat) (t : τ) (key s : Bytes) : Option Bytes :=
  match hmacNew h bs (fun _ => t) key t with
  | .ok _ t1 => hsh (hmac h bs (fun _ => t) key) t1 s
  | _ => none
def gcmE (a : Option (Except Exn AEAD.AnyAuth)) (s : Bytes) : Option Bytes :=
  match a with
  | some (.ok a) => outv (authTransformString a.T s a.t)
  | _ => none
def gcmD (a : Option (Except Exn AEAD.AnyAuth)) (s : Bytes) : Option Bytes :=
  match a with
  | some (.ok a) => (outv (authCheckTransformString a.T s a.t)).join
  | _ => none
def cpE (h iv k s : Bytes) : Option Bytes :=
  match chacha20Poly1305Init env h iv k with
  | .ok st _ => outv (authTransformString (chacha20Poly1305 env iv.length .encrypt) s st)
  | _ => none
def cpD (h iv k s : Bytes) : Option Bytes :=
  match chacha20Poly1305Init env h iv k with
  | .ok st _ => (outv (authCheckTransformString (chacha20Poly1305 env iv.length .decrypt) s st)).join
  | _ => none
def seq251 (n : Nat) : Bytes := (List.range n).map fun i => BitVec.ofNat 8 (i % 251)
def trO (b : Option (Except Exn AnyTransform)) (s : Bytes) : Option Bytes :=
  match b with
  | some b => strm b s
  | _ => none
def encdec (e d : Option (Except Exn AnyTransform)) (s : Bytes) : Option Bytes := (trO e s).bind (trO d)
def tooLong (b : Option (Except Exn AnyTransform)) (s : Bytes) : Bool :=
  match b with
  | some (.ok b) =>
    match transformString b.T s b.t with
    | .exn (.error .messageTooLong) _ => true
    | _ => false
  | _ => false
'''
path = next((a for a in sys.argv[1:] if not a.startswith('--')), '/tmp/Conformance.lean')
open(path, 'w').write(HEAD + '\n'.join(out) + '\n')
if '--only' not in sys.argv:
    r = subprocess.run(['lake', 'env', 'lean', path], cwd='/verif/lean', capture_output=True, text=True).stdout
    sys.stdout.write(r)
    print(r.count('ok '), 'agree,', len(r.splitlines()) - r.count('ok '), 'other lines')
