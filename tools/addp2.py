def add(lines):
    p='/verif/tools/props.py'; s=open(p).read()
    i=s.index("with open('/verif/properties.jsonl'")
    open(p,'w').write(s[:i]+lines+s[i:])
