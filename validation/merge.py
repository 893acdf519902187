# merge.py OUT IN... : the glyphs of several outputs of write_glyphs, one entry per picture, in the order of image_compare
import sys
def parse(p):
    L=open(p,'rb').read().split(b'\n'); i=0; R=[]
    while i<len(L) and L[i].strip():
        n=int(L[i+1]); R.append((L[i],L[i+2:i+2+n])); i+=2+n
    return R
def key(h):
    a=h.split(b' ')
    return (int(a[0]),int(a[1]),a[2])
D={}
for f in sys.argv[2:]:
    for h,vs in parse(f): D.setdefault(h,set()).update(vs)
with open(sys.argv[1],'wb') as o:
    for h in sorted(D,key=key):
        vs=sorted(D[h]); o.write(b'\n'.join([h,b'%d'%len(vs)]+vs)+b'\n')
