# Extract the 160 macro calls of RIPEMD160_compress (/repo/src/ripemd160.c:124-309).
import re
t=open('/repo/src/ripemd160.c').read()
t=t[t.index('/* left round 1 */'):t.index('/* Update chaining values */')]
calls=re.findall(r'([FGHIJ]{2,3})\((\w), (\w), (\w), (\w), (\w), data\[\s*(\d+)\]\s*,\s*(\d+)\)',t)
assert len(calls)==160
def fmt(cs):
    out=[]
    for m,a,b,c,d,e,x,s in cs:
        out.append(f".mk .{m} {' '.join(str('abcde'.index(v)) for v in (a,b,c,d,e))} {x} {s}")
    return '  ['+',\n   '.join(', '.join(out[i:i+3]) for i in range(0,len(out),3))+']'
print("LEFT\n"+fmt(calls[:80])+"\nRIGHT\n"+fmt(calls[80:]))
