import sys,re
def u(h): return b'' if h=='_' else bytes.fromhex(h)
op,src,ic,s=sys.argv[1:5]
f=re.I if ic=='true' else 0
def hx(b): return b.hex() or '_'
try: r=re.compile(u(src),f)
except re.error: print('bad'); sys.exit()
if op=='compile': print('ok')
elif op=='search':
    m=r.search(u(s))
    print('N' if not m else ' '.join(hx(x or b'') for x in [m.group(0)]+list(m.groups())))
else:
    t=re.sub(rb'\$(\d)',rb'\\\1',re.sub(rb'\\([^a-zA-Z0-9])',rb'\1',u(sys.argv[5])))
    print(hx(r.sub(t,u(s))))
